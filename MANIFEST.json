{
 "claims": [
  {
   "property": "C01",
   "status": "proved",
   "theorems": [
    "Albatross.C01_group_by_partitions"
   ],
   "note": ""
  },
  {
   "property": "C02",
   "status": "proved",
   "theorems": [
    "Albatross.C02_groups",
    "Albatross.C02_get_group",
    "Albatross.C02_counts",
    "Albatross.C02_combine_perm",
    "Albatross.C02_groups_dataset",
    "Albatross.C02_first_group"
   ],
   "note": ""
  },
  {
   "property": "C03",
   "status": "proved",
   "theorems": [
    "Albatross.C03_leave_one_out",
    "Albatross.C03_k_fold"
   ],
   "note": ""
  },
  {
   "property": "C04",
   "status": "proved",
   "theorems": [
    "Albatross.C04_folds_split",
    "Albatross.C04_grouper_is_partition",
    "Albatross.C04_dataset_size",
    "Albatross.C04_dataset_size_checks"
   ],
   "note": ""
  },
  {
   "property": "C05",
   "status": "proved",
   "theorems": [
    "Albatross.C05_means_in_dataset_order",
    "Albatross.C05_marginals_in_dataset_order",
    "Albatross.C05_cross_validated_mean"
   ],
   "note": "joint predictions have no stitched form in the code (deleted)"
  },
  {
   "property": "C06",
   "status": "proved",
   "theorems": [
    "Albatross.C06_indices_complement"
   ],
   "note": ""
  },
  {
   "property": "C07",
   "status": "proved",
   "theorems": [
    "Albatross.C07_subset",
    "Albatross.C07_subset_compose",
    "Albatross.C07_subset_matrix",
    "Albatross.C07_set_subset",
    "Albatross.C07_set_subset_rejects",
    "Albatross.C07_subset_rows",
    "Albatross.C07_subset_matrix_rejects",
    "Albatross.C07_symmetric_subset"
   ],
   "note": "indices of type std::size_t"
  },
  {
   "property": "C08",
   "status": "partial",
   "theorems": [
    "Albatross.C08_diagonal_bounds_violated",
    "Albatross.C08_diagonal_partial"
   ],
   "note": "The stated property is false for the code (C08_diagonal_bounds_violated); C08_diagonal_partial is the part that holds."
  },
  {
   "property": "C09",
   "status": "proved",
   "theorems": [
    "Albatross.C09_deduplicate"
   ],
   "note": "metadata of the dataset is dropped by the code; stated in the theorem"
  },
  {
   "property": "C10",
   "status": "proved",
   "theorems": [
    "Albatross.C10_align_datasets",
    "Albatross.C10_align_unique",
    "Albatross.C10_align_duplicates_grow"
   ],
   "note": "with repeated features all matching pairs are kept (C10_align_duplicates_grow)"
  },
  {
   "property": "C11",
   "status": "proved",
   "theorems": [
    "Albatross.C11_map_union",
    "Albatross.C11_map_intersect",
    "Albatross.C11_map_difference",
    "Albatross.C11_map_symmetric_difference",
    "Albatross.C11_map_keys",
    "Albatross.C11_map_join",
    "Albatross.C11_map_join_strict",
    "Albatross.C11_map_at_or"
   ],
   "note": "both maps with the same key type; in release builds map_join_strict keeps the first argument's value, unlike map_join (stated in the theorem)"
  },
  {
   "property": "C12",
   "status": "proved",
   "theorems": [
    "Albatross.C12_map_subset",
    "Albatross.C12_map_subset_sorted"
   ],
   "note": ""
  },
  {
   "property": "C13",
   "status": "proved",
   "theorems": [
    "Albatross.C13_minimum_spanning_forest",
    "Albatross.C13_create_graph_valid",
    "Albatross.C13_missing_vertex_faults"
   ],
   "note": ""
  },
  {
   "property": "C14",
   "status": "proved",
   "theorems": [
    "Albatross.C14_maximum_spanning_forest"
   ],
   "note": ""
  },
  {
   "property": "C15",
   "status": "partial",
   "theorems": [
    "Albatross.C15_maximum_spanning_tree_partial",
    "Albatross.C15_minimum_spanning_tree_partial",
    "Albatross.C15_no_edges",
    "Albatross.C15_self_loop_breaks_tree"
   ],
   "note": "The stated property is false for the code when a self loop has the extremal cost (C15_self_loop_breaks_tree); the partial theorems cover every other connected graph."
  },
  {
   "property": "C16",
   "status": "proved",
   "theorems": [
    "Albatross.C16_randint",
    "Albatross.C16_randint_returns",
    "Albatross.C16_randint_too_many",
    "Albatross.C16_random_without_replacement"
   ],
   "note": ""
  },
  {
   "property": "C17",
   "status": "proved",
   "theorems": [
    "Albatross.C17_apply_value",
    "Albatross.C17_apply_exception",
    "Albatross.C17_apply_serial",
    "Albatross.C17_apply_map_serial",
    "Albatross.C17_apply_map_value",
    "Albatross.C17_apply_terminates",
    "Albatross.C17_apply_map_terminates",
    "Albatross.C17_apply_memory",
    "Albatross.C17_serial_iff"
   ],
   "note": "functions are pure except for writes to caller memory; the pool's queue is a contract (empty submodule)"
  },
  {
   "property": "C18",
   "status": "proved",
   "theorems": [
    "Albatross.C18_blocks_cover",
    "Albatross.C18_cross_serial",
    "Albatross.C18_cross_threaded",
    "Albatross.C18_cross_threads_agree"
   ],
   "note": ""
  },
  {
   "property": "C19",
   "status": "proved",
   "theorems": [
    "Albatross.C19_exact_fractions",
    "Albatross.C19_partition_covers",
    "Albatross.C19_symmetric_serial",
    "Albatross.C19_symmetric_threaded",
    "Albatross.C19_threads_agree",
    "Albatross.C19_asymmetric_differs",
    "Albatross.C19_outside"
   ],
   "note": "rounding enters through GoodFractions: holds for any computed fractions whose last one is close enough to 1, and for exact arithmetic"
  },
  {
   "property": "C20",
   "status": "partial",
   "theorems": [
    "Albatross.C20_sum_value",
    "Albatross.C20_product_value",
    "Albatross.C20_sum_psd",
    "Albatross.C20_product_psd_partial",
    "Albatross.C20_linear_combinations_psd",
    "Albatross.C20_product_mixed_types_not_psd",
    "Albatross.C20_symmetric"
   ],
   "note": "Values, symmetry, sums and linear combinations proved in full. Products: positive semi-definiteness is false of the code for features of different types (C20_product_mixed_types_not_psd); C20_product_psd_partial covers factors defined on the same pairs."
  },
  {
   "property": "C21",
   "status": "proved",
   "theorems": [
    "Albatross.C21_symmetric",
    "Albatross.C21_one_order_suffices",
    "Albatross.C21_bilinear",
    "Albatross.C21_linear_one_side",
    "Albatross.C21_variant_dispatch",
    "Albatross.C21_variant_one_side",
    "Albatross.C21_measurement_transparent",
    "Albatross.C21_measurement_distinguished",
    "Albatross.C21_measurement_only",
    "Albatross.C21_measurement_only_linear_combination"
   ],
   "note": "one-order and wrapper theorems are for basic types, linear combinations and variants of them; nesting beyond that does not compile"
  },
  {
   "property": "C22",
   "status": "proved",
   "theorems": [
    "Albatross.C22_constant_psd",
    "Albatross.C22_polynomial_psd",
    "Albatross.C22_noise_psd",
    "Albatross.C22_squared_exponential_psd",
    "Albatross.C22_squared_exponential_real_psd",
    "Albatross.C22_exponential_real_psd",
    "Albatross.C22_matern_32_real_psd",
    "Albatross.C22_matern_52_real_psd",
    "Albatross.C22_radial_bounds",
    "Albatross.C22_checked",
    "Albatross.C22_bounded_by_diagonal"
   ],
   "note": "squared exponential in any dimension; exponential and Matern covariances (not in the statement) for double features; C22_checked covers the assertion on the distance"
  },
  {
   "property": "C23",
   "status": "proved",
   "theorems": [
    "Albatross.Handler.C23_round_trip_object",
    "Albatross.C23_get_tunable",
    "Albatross.C23_get_tunable_out_of_bounds",
    "Albatross.C23_round_trip",
    "Albatross.C23_round_trip_real",
    "Albatross.C23_log_scale_positive",
    "Albatross.C23_set_then_get"
   ],
   "note": "rounding: on the linear scale exact; log scale parameters under the hypothesis that libm's exp inverts its log at the stored value, and for the real functions"
  },
  {
   "property": "C24",
   "status": "partial",
   "theorems": [
    "Albatross.C24_entry_to_parameter",
    "Albatross.C24_within_bounds_partial",
    "Albatross.C24_nan_escapes_bounds",
    "Albatross.C24_too_long",
    "Albatross.C24_too_short_reads_out_of_bounds",
    "Albatross.Handler.C24_set_tunable_object"
   ],
   "note": "False of the code for NaN entries (C24_nan_escapes_bounds) and for vectors that are too short, which read out of bounds before the assertion (C24_too_short_reads_out_of_bounds); everything else proved."
  },
  {
   "property": "C25",
   "status": "partial",
   "theorems": [
    "Albatross.Handler.C25_set_then_get_partial",
    "Albatross.Handler.C25_set_value_partial",
    "Albatross.Handler.C25_set_missing",
    "Albatross.Handler.C25_set_params_partial",
    "Albatross.Handler.C25_set_params_if_exists_partial",
    "Albatross.Handler.C25_shared_name_set_is_invisible",
    "Albatross.Handler.C25_shared_name_violates",
    "Albatross.Handler.C25_shared_name_set_params_changes_others",
    "Albatross.C25_set_param_values_partial",
    "Albatross.C25_set_param_values_missing",
    "Albatross.Handler.C25_empty_name"
   ],
   "note": "False of the code when two parts share a parameter name (C25_shared_name_violates, C25_shared_name_set_params_changes_others); proved for all objects without shared names."
  },
  {
   "property": "C26",
   "status": "proved",
   "theorems": [
    "Albatross.C26_set_missing",
    "Albatross.C26_set_existing",
    "Albatross.C26_set_params_if_exists",
    "Albatross.C26_set_param_values_if_exists",
    "Albatross.C26_set_params",
    "Albatross.C26_set_prior_if_exists",
    "Albatross.C26_set_param_values"
   ],
   "note": ""
  },
  {
   "property": "C27",
   "status": "proved",
   "theorems": [
    "Albatross.C27_prediction_is_conditional",
    "Albatross.C27_prediction_formulas",
    "Albatross.C27_forms_agree",
    "Albatross.C27_prediction_pointwise",
    "Albatross.C27_covariance_psd"
   ],
   "note": ""
  },
  {
   "property": "C28",
   "status": "partial",
   "theorems": [
    "Albatross.C28_update_is_conditioning",
    "Albatross.C28_update_eq_refit_partial",
    "Albatross.C28_false"
   ],
   "note": "False of the code when the covariance has measurement-only noise (C28_false): _update_impl does not wrap the features in Measurement. C28_update_is_conditioning says what the update computes in general; C28_update_eq_refit_partial proves the property when the wrapper has no effect."
  },
  {
   "property": "C29",
   "status": "proved",
   "theorems": [
    "Albatross.C29_round_trip",
    "Albatross.C29_elsewhere"
   ],
   "note": "The prior covariance of the features is invertible; Eigen's LDLT enters by its contract."
  },
  {
   "property": "C30",
   "status": "proved",
   "theorems": [
    "Albatross.C30_group_joint",
    "Albatross.C30_group_forms",
    "Albatross.C30_group_pool",
    "Albatross.C30_leave_one_out",
    "Albatross.C30_gp_refit"
   ],
   "note": "The held-out formulas give the Gaussian conditional of the held-out noisy observations given the others, for every grouping into disjoint nonempty groups, serial or pooled. C30_gp_refit compares with a model refitted without the group."
  },
  {
   "property": "C31",
   "status": "proved",
   "theorems": [
    "Albatross.C31_block_symmetric_from_schur",
    "Albatross.C31_block_symmetric_from_block",
    "Albatross.C31_positive_definite_applies",
    "Albatross.C31_explained_covariance",
    "Albatross.C31_direct_inverse"
   ],
   "note": ""
  },
  {
   "property": "C32",
   "status": "proved",
   "theorems": [
    "Albatross.C32_square_root",
    "Albatross.C32_square_root_semidefinite",
    "Albatross.C32_solve",
    "Albatross.C32_solve_semidefinite",
    "Albatross.C32_log_determinant",
    "Albatross.C32_is_positive_definite",
    "Albatross.C32_inverse_blocks",
    "Albatross.C32_inverse_blocks_pool",
    "Albatross.C32_inverse_diagonal",
    "Albatross.C32_decomposition_exists"
   ],
   "note": "The contract of Eigen's pivoted LDLT (Ldlt.Factors) is a hypothesis; C32_decomposition_exists shows it can be met for every positive definite matrix."
  },
  {
   "property": "C33",
   "status": "proved",
   "theorems": [
    "Albatross.C33_rows",
    "Albatross.C33_to_dense",
    "Albatross.C33_diagonal",
    "Albatross.C33_product",
    "Albatross.C33_wrong_rows",
    "Albatross.C33_solve",
    "Albatross.C33_sqrt_solve",
    "Albatross.C33_log_determinant",
    "Albatross.C33_difference",
    "Albatross.C33_pool",
    "Albatross.C33_difference_rejects"
   ],
   "note": "Square blocks, real arithmetic; each block decomposition is represented by its LDLT factor contract. rcond is not modelled."
  },
  {
   "property": "C34",
   "status": "proved",
   "theorems": [
    "Albatross.C34_conditional",
    "Albatross.C34_forms_agree",
    "Albatross.C34_out_of_range"
   ],
   "note": "Real arithmetic; LDLT is represented by its factor contract. Out of range indices are undefined behaviour (C34_out_of_range)."
  },
  {
   "property": "C35",
   "status": "proved",
   "theorems": [
    "Albatross.C35_prediction_is_conditional",
    "Albatross.C35_fit_uses_strategy",
    "Albatross.C35_forms_agree",
    "Albatross.C35_applies",
    "Albatross.C35_spanning_inducing_points",
    "Albatross.C35_no_inducing_points"
   ],
   "note": "Exact arithmetic; LDLT and QR by contract (existence proved); rows indexed by group and position. Zero mean function (see C37). The nuggets appear in the specification: Q uses K_uu plus the inducing nugget, R includes the measurement nugget. Also: equality with the dense model for spanning inducing points without inducing nugget."
  },
  {
   "property": "C36",
   "status": "proved",
   "theorems": [
    "Albatross.C36_updates_eq_batch",
    "Albatross.C36_any_order"
   ],
   "note": "Inducing points fixed (an update keeps those of the fit). Updates equal the batch fit when no group is split; order never matters."
  },
  {
   "property": "C37",
   "status": "partial",
   "theorems": [
    "Albatross.C37_dense_mean",
    "Albatross.C37_dense_shift",
    "Albatross.C37_dense_shift_update",
    "Albatross.C37_sparse_code_value",
    "Albatross.C37_sparse_partial",
    "Albatross.C37_sparse_false"
   ],
   "note": "Dense model: proved (fit, update, shift). Sparse model: false, the mean function is removed from a copy that is not used (C37_sparse_false); proved what the code computes and the case of a mean that is zero at the training features."
  },
  {
   "property": "C38",
   "status": "proved",
   "theorems": [
    "Albatross.C38_log_likelihood"
   ],
   "note": "Plus the prior log likelihood of the parameters, which the function adds. The density has mean zero: the mean function is not removed (C37)."
  },
  {
   "property": "C39",
   "status": "partial",
   "theorems": [
    "Albatross.C39_code_value",
    "Albatross.C39_log_likelihood_partial",
    "Albatross.C39_false"
   ],
   "note": "False of the code with non-zero target variances (C39_false); C39_code_value gives the value computed in general."
  },
  {
   "property": "C40",
   "status": "proved",
   "theorems": [
    "Albatross.C40_ldlt",
    "Albatross.C40_univariate",
    "Albatross.C40_dense",
    "Albatross.C40_diagonal",
    "Albatross.C40_agree",
    "Albatross.C40_size_mismatch"
   ],
   "note": ""
  },
  {
   "property": "C41",
   "status": "partial",
   "theorems": [
    "Albatross.C41_code_value",
    "Albatross.C41_entropy_partial",
    "Albatross.C41_false"
   ],
   "note": "False of the code unless the dimension is 1 or det = 1 (C41_false, C41_entropy_partial)."
  },
  {
   "property": "C42",
   "status": "partial",
   "theorems": [
    "Albatross.C42_uniform",
    "Albatross.C42_improper",
    "Albatross.C42_gaussian_partial",
    "Albatross.C42_gaussian_exact_iff",
    "Albatross.C42_gaussian_not_normalised",
    "Albatross.C42_positive_gaussian_partial",
    "Albatross.C42_positive_gaussian_wrong",
    "Albatross.C42_log_normal_partial",
    "Albatross.C42_log_normal_wrong",
    "Albatross.C42_log_normal_at_zero"
   ],
   "note": "Uniform and improper priors proved. False of the code for Gaussian, positive Gaussian (constant) and log normal (shape) priors; exact deviation proved."
  },
  {
   "property": "C43",
   "status": "proved",
   "theorems": [
    "Albatross.C43_sum",
    "Albatross.C43_difference",
    "Albatross.C43_scaling",
    "Albatross.C43_mean_only",
    "Albatross.C43_marginal",
    "Albatross.C43_marginal_commutes",
    "Albatross.C43_transformed_joint",
    "Albatross.C43_transformed_marginal",
    "Albatross.C43_concatenate",
    "Albatross.C43_subset",
    "Albatross.C43_subset_marginal",
    "Albatross.C43_element",
    "Albatross.C43_set_subset",
    "Albatross.C43_concatenate_list"
   ],
   "note": "Sums, differences, scalings, matrix multiples, subsets, elements, concatenations and marginals, each proved to describe the corresponding normally distributed random vector (Mathlib's multivariate Gaussian). Sizes agree by typing; metadata not modelled."
  },
  {
   "property": "C44",
   "status": "partial",
   "theorems": [
    "Albatross.C44_contract",
    "Albatross.C44_contract_indexer",
    "Albatross.C44_success",
    "Albatross.C44_terminates_partial",
    "Albatross.C44_terminates_false"
   ],
   "note": "The result contract is proved for every engine output list; every fair stream terminates (C44_terminates_partial), but termination for every stream is false: a constant stream makes the rejection sampling of random_without_replacement run forever (C44_terminates_false)."
  },
  {
   "property": "C45",
   "status": "partial",
   "theorems": [
    "Albatross.C45_false",
    "Albatross.C45_iteration",
    "Albatross.C45_partial",
    "Albatross.C45_of_runs_partial"
   ],
   "note": "RansacOutput::operator== compares best with itself, so outputs differing only in best compare equal (C45_false). The comparison is characterised exactly, and agrees with memberwise comparison for outputs of runs with the same functions and minimal consensus size."
  },
  {
   "property": "C46",
   "status": "proved",
   "theorems": [
    "Albatross.C46_step",
    "Albatross.C46_step_returns",
    "Albatross.C46_sampler",
    "Albatross.C46_sampler_from_params",
    "Albatross.C46_sampler_model",
    "Albatross.C46_sampler_returns",
    "Albatross.C46_random_complement",
    "Albatross.C46_partner",
    "Albatross.C46_no_partner"
   ],
   "note": "Objective function is a pure function of the parameters; each random draw consumes one output of the engine. The sampler needs more than two finite starting states although its message says at least two."
  },
  {
   "property": "C47",
   "status": "proved",
   "theorems": [
    "Albatross.C47_ensure_finite",
    "Albatross.C47_ensure_finite_checks",
    "Albatross.C47_jitter"
   ],
   "note": "The objective is a pure function; random draws are engine outputs; termination of the retry loop is governed by the attempt bound in the code."
  },
  {
   "property": "C48",
   "status": "partial",
   "theorems": [
    "Albatross.C48_last_iteration_partial",
    "Albatross.C48_exact_partial",
    "Albatross.C48_false",
    "Albatross.C48_sampler_run_partial",
    "Albatross.C48_ragged_line",
    "Albatross.C48_refuses"
   ],
   "note": "The file stores six decimals, so values come back rounded (C48_false shows the exact claim fails); exact for values of at most six decimals within bounds. Doubles are exact reals; stod is modelled on the texts to_string writes."
  },
  {
   "property": "C49",
   "status": "proved",
   "theorems": [
    "Albatross.C49_supremum",
    "Albatross.C49_range",
    "Albatross.C49_order",
    "Albatross.C49_empty"
   ],
   "note": "uniform_ks_test over the reals: the least upper bound of |ECDF - x| over [0,1], order independence, range, empty list."
  },
  {
   "property": "C50",
   "status": "partial",
   "theorems": [
    "Albatross.C50_special_cases",
    "Albatross.C50_incomplete_gamma_cases",
    "Albatross.C50_series_range_partial",
    "Albatross.C50_series_infinite_false",
    "Albatross.C50_chi_squared_range",
    "Albatross.C50_quadrature_nonneg",
    "Albatross.C50_vector",
    "Albatross.C50_deviation",
    "Albatross.C50_chi_squared_exceeds_one",
    "Albatross.C50_quadrature_range_false"
   ],
   "note": "All special cases, the range of the series branch for finite z, of chi_squared_cdf below 20 degrees of freedom, non-negativity of the quadrature branch. False at z = +inf for the series (NaN) and for the upper limit of the quadrature branch: chi_squared_cdf(576, 288) exceeds 1 (C50_chi_squared_exceeds_one, C50_quadrature_range_false)."
  },
  {
   "property": "C51",
   "status": "partial",
   "theorems": [
    "Albatross.C51_smallest",
    "Albatross.C51_not_worse_than_start",
    "Albatross.C51_nothing_to_do",
    "Albatross.C51_tie_false",
    "Albatross.C51_start_kept_partial"
   ],
   "note": "The smallest value of all evaluations and not worse than the start are proved for every objective, NaN included; that the start is returned when nothing strictly better is found is false for ties (C51_tie_false) and proved for objectives where every other evaluation is strictly worse or NaN."
  },
  {
   "property": "C52",
   "status": "partial",
   "theorems": [
    "Albatross.C52_interior_partial",
    "Albatross.C52_at_bound",
    "Albatross.C52_single_query_false",
    "Albatross.C52_large_value_false"
   ],
   "note": "Proved for values strictly inside finite bounds and queries away from n=1; false for a single query (C52_single_query_false: ratio is the logarithm) and for values beyond the 1e8 replacement of infinite bounds (C52_large_value_false)."
  },
  {
   "property": "C53",
   "status": "partial",
   "theorems": [
    "Albatross.C53_forward_partial",
    "Albatross.C53_upper_bound_false",
    "Albatross.C53_vector"
   ],
   "note": "Forward differences proved for every parameter whose step stays within bounds (in particular lower bounds); false at upper bounds (C53_upper_bound_false): the step is clamped back and the gradient is zero."
  },
  {
   "property": "C54",
   "status": "partial",
   "theorems": [
    "Albatross.C54_rearranged_partial",
    "Albatross.C54_at_most_ten_partial",
    "Albatross.C54_false",
    "Albatross.C54_eigen",
    "Albatross.C54_dimension"
   ],
   "note": "Proved for at most ten entries; for any length the tuner starts at a rearrangement; false for eleven entries (C54_false) since keys sort as text."
  },
  {
   "property": "C55",
   "status": "proved",
   "theorems": [
    "Albatross.C55_first_kind",
    "Albatross.C55_second_kind",
    "Albatross.C55_cos",
    "Albatross.C55_sin",
    "Albatross.C55_basis_first_kind",
    "Albatross.C55_basis_second_kind",
    "Albatross.C55_negative_degree"
   ],
   "note": "chebyshev_t and chebyshev_u over the reals return, entry by entry, the values of Mathlib's Chebyshev polynomials T_n and U_n for every degree, hence cos(n t) and sin((n+1) t)/sin(t); column k of the phi matrices is the degree-k polynomial; negative degrees assert, or return degree two / write out of range under NDEBUG."
  },
  {
   "property": "C56",
   "status": "proved",
   "theorems": [
    "Albatross.C56_squared_exponential",
    "Albatross.C56_exponential",
    "Albatross.C56_fallback",
    "Albatross.C56_nan",
    "Albatross.C56_newton_bracket",
    "Albatross.C56_newton_iterates",
    "Albatross.C56_matern_32_derivative",
    "Albatross.C56_matern_52_derivative",
    "Albatross.C56_matern_32",
    "Albatross.C56_matern_52"
   ],
   "note": "The squared exponential and exponential length scales reproduce the requested process noise exactly for 0 < noise < sigma; fallbacks otherwise; newton_solve stays in its bracket and each iterate is a clamped Newton step, with the Matern log gradients proved to be the derivatives; the Matern results are within 1e-12 in log noise, or at a bracket end on the right side, or the 50th Newton iterate (the code's iteration cap)."
  },
  {
   "property": "C57",
   "status": "partial",
   "theorems": [
    "Albatross.C57_square_loaded",
    "Albatross.C57_lost",
    "Albatross.C57_round_trip_false",
    "Albatross.C57_rectangular",
    "Albatross.C57_empty_partial"
   ],
   "note": "False: triplets are saved with row and column exchanged and only nnz*sizeof(double) of the nnz*16 bytes are kept; C57_lost shows no matrix with a nonzero entry survives, C57_square_loaded what is loaded instead, C57_rectangular that loading may be out of range; the case without stored entries holds."
  },
  {
   "property": "C58",
   "status": "proved",
   "theorems": [
    "Albatross.C58_dense",
    "Albatross.C58_dense_legacy",
    "Albatross.C58_inferred_rows",
    "Albatross.C58_lower_triangle"
   ],
   "note": "Under the contracts of zstd, base64 and (legacy payloads) gzip stated as hypotheses; the square root is modelled with every operation rounded to double, sizes up to 2^53 stored values."
  },
  {
   "property": "C59",
   "status": "proved",
   "theorems": [
    "Albatross.C59_maybe_decompress",
    "Albatross.C59_failures",
    "Albatross.C59_true_means_written",
    "Albatross.C59_round_trip",
    "Albatross.C59_decompress_errors",
    "Albatross.C59_decompress_string_debug"
   ],
   "note": "Under the zstd contract stated as Zstd.Contract; buffers no larger than std::string::max_size()."
  },
  {
   "property": "C60",
   "status": "partial",
   "theorems": [
    "Albatross.C60_draws",
    "Albatross.C60_law",
    "Albatross.C60_involution_partial",
    "Albatross.C60_covariance_false",
    "Albatross.C60_antithetic",
    "Albatross.C60_rejects"
   ],
   "note": "The draws are mean + (P L sqrt(D)) z, normal with covariance P L D L^T P^T; this is the requested covariance when the pivoting permutation is an involution, and C60_covariance_false shows it is not in general (the code multiplies by transpositionsP() where its transpose is needed). Antithetic pairs and their number are proved in full."
  },
  {
   "property": "C61",
   "status": "partial",
   "theorems": [
    "Albatross.C61_terms",
    "Albatross.C61_same_norm_false",
    "Albatross.C61_scaling_false",
    "Albatross.C61_assertion_false",
    "Albatross.C61_unit_weights_partial",
    "Albatross.C61_point_mass"
   ],
   "note": "The two terms use different norms (weights enter squared in one): C61_same_norm_false, C61_scaling_false and C61_assertion_false are counterexamples. Consistency is proved for unit weights, and the score of a point mass at the truth is zero for all weights."
  },
  {
   "property": "C62",
   "status": "proved",
   "theorems": [
    "Albatross.C62_fit_minimises",
    "Albatross.C62_predict",
    "Albatross.C62_linear_regression",
    "Albatross.C62_rejects",
    "Albatross.C62_ragged"
   ],
   "note": "For a column pivoted QR meeting its contract (A P = Q R, exact rank), the coefficients minimise the residual sum of squares over all coefficient vectors; predictions are dot products; LinearRegression recovers intercept and slope exactly for collinear data with two different abscissae. Householder rounding is not modelled; unequal variances assert, no features are UB."
  },
  {
   "property": "C63",
   "status": "partial",
   "theorems": [
    "Albatross.C63_parameters_lost",
    "Albatross.C63_parameters_false",
    "Albatross.C63_prediction_partial",
    "Albatross.C63_set_param_partial",
    "Albatross.C63_default",
    "Albatross.C63_set_ignored",
    "Albatross.C63_set_again"
   ],
   "note": "The prediction half holds for every model and feature list. The parameter half is false (C63_parameters_false): NullModel declares a private params_ hiding the inherited one, so get_params reports none of the constructor's parameters."
  },
  {
   "property": "C64",
   "status": "partial",
   "theorems": [
    "Albatross.C64_rectangular_partial",
    "Albatross.C64_dataset_only_partial",
    "Albatross.C64_empty_false",
    "Albatross.C64_datasets_false",
    "Albatross.C64_datasets_partial",
    "Albatross.C64_matrix",
    "Albatross.C64_matrix_round_trip"
   ],
   "note": "Proved for every dataset with at least one feature; for an empty dataset no header is written (C64_empty_false) and the several-datasets overload uses the first dataset's columns only (C64_datasets_false). Number formatting and the column map of a feature (an XML archive in the code) are parameters."
  },
  {
   "property": "C65",
   "status": "proved",
   "theorems": [
    "Albatross.C65_sparse",
    "Albatross.C65_dense",
    "Albatross.C65_combinations",
    "Albatross.C65_composition",
    "Albatross.C65_covariance",
    "Albatross.C65_cross_covariance",
    "Albatross.C65_mean",
    "Albatross.C65_named",
    "Albatross.C65_mean_combination",
    "Albatross.C65_constructor",
    "Albatross.C65_sizes_unchecked_false"
   ],
   "note": "Sparse and dense products give the combinations of the rows of the matrix; covariance is A K B^T, cross covariance A K (both orders), mean A m; two transforms compose as the product. Sizes are not checked by the code (C65_sizes_unchecked_false)."
  },
  {
   "property": "C66",
   "status": "proved",
   "theorems": [
    "Albatross.C66_elementwise",
    "Albatross.C66_cancel",
    "Albatross.C66_zero",
    "Albatross.C66_sizes",
    "Albatross.C66_sum_base",
    "Albatross.C66_product_base",
    "Albatross.C66_measurement",
    "Albatross.C66_linear",
    "Albatross.C66_variant",
    "Albatross.C66_sum_linear"
   ],
   "note": "add_to and remove_from are elementwise and cancel; sums, products, measurements, combinations and variants evaluate as stated; ZeroMean changes nothing. Parameters of composed mean functions are covered with the other parameter stores (C25)."
  },
  {
   "property": "C67",
   "status": "proved",
   "theorems": [
    "Albatross.C67_index_round_trip",
    "Albatross.C67_size_round_trip",
    "Albatross.C67_outside",
    "Albatross.C67_to_double",
    "Albatross.C67_to_double_limit"
   ],
   "note": "to_size/to_index round trip on the shared range for both builds, to_double exact up to 2^53 in magnitude, assertion failure outside in debug, wrap around characterised under NDEBUG, and the 2^53 limit shown to be tight."
  },
  {
   "property": "C68",
   "status": "proved",
   "theorems": [
    "Albatross.C68_rmse",
    "Albatross.C68_rmse_degenerate",
    "Albatross.C68_rmse_zero",
    "Albatross.C68_rmse_invariant",
    "Albatross.C68_sd",
    "Albatross.C68_sd_small",
    "Albatross.C68_sd_zero",
    "Albatross.C68_sd_invariant",
    "Albatross.C68_sd_of",
    "Albatross.C68_crps",
    "Albatross.C68_crps_nonneg",
    "Albatross.C68_crps_shift",
    "Albatross.C68_crps_nonfinite",
    "Albatross.C68_variogram",
    "Albatross.C68_variogram_nonneg",
    "Albatross.C68_variogram_shift",
    "Albatross.C68_variogram_point_mass",
    "Albatross.C68_variogram_permutation",
    "Albatross.C68_variogram_negative_false"
   ],
   "note": "RMSE and standard deviation for all vectors (NaN for none); CRPS equals E|X-y|-E|X-X'|/2, is at least (sqrt2-1)sigma/sqrt(pi), zero only for a certain correct prediction; variogram score equals the expectation formula over i<j for positive semidefinite covariances and non-negative weights. Negative weights are accepted by the code and can give a negative score (C68_variogram_negative_false)."
  },
  {
   "property": "C69",
   "status": "proved",
   "theorems": [
    "Albatross.C69_sum",
    "Albatross.C69_accumulate",
    "Albatross.C69_product",
    "Albatross.C69_inner_product",
    "Albatross.C69_same_keys",
    "Albatross.C69_diag_solve",
    "Albatross.C69_subtract",
    "Albatross.C69_missing_key",
    "Albatross.C69_sum_grouped"
   ],
   "note": "Dense operations on sigma-indexed stacked matrices. Products need equal key sets; with assertions anything else is rejected (C69_same_keys)."
  },
  {
   "property": "C70",
   "status": "proved",
   "theorems": [
    "Albatross.C70_unique_values",
    "Albatross.C70_unique_values_apply",
    "Albatross.C70_unique_value",
    "Albatross.C70_unique_value_apply",
    "Albatross.C70_unique_value_ndebug",
    "Albatross.C70_filter_vector",
    "Albatross.C70_filter_set",
    "Albatross.C70_filter_map",
    "Albatross.C70_apply_map",
    "Albatross.C70_filter_dataset",
    "Albatross.C70_all_any_contains"
   ],
   "note": "unique_values (plain and with a function), unique_value (success iff non-empty and all equal in debug; smallest value or UB under NDEBUG), filter for vectors, sets, maps and datasets, apply on maps, all, any and vector_contains."
  },
  {
   "property": "C71",
   "status": "partial",
   "theorems": [
    "Albatross.C71_linspace_partial",
    "Albatross.C71_single",
    "Albatross.C71_empty",
    "Albatross.C71_linspace_false"
   ],
   "note": "Proved for n >= 2 (n <= 2^53+1) over the reals extended by infinities and NaN. As stated for every n it is false: n = 1 returns only a (C71_linspace_false), n = 0 asserts in debug and returns nothing under NDEBUG. Rounding of the repeated addition is not modelled."
  },
  {
   "property": "C72",
   "status": "proved",
   "theorems": [
    "Albatross.C72_valid_iff",
    "Albatross.C72_log_likelihood_sum",
    "Albatross.C72_log_likelihood_impossible",
    "Albatross.C72_no_prior_contributes_zero",
    "Albatross.C72_uniform_bounds"
   ],
   "note": ""
  },
  {
   "property": "C73",
   "status": "proved",
   "theorems": [
    "Albatross.C73_concatenate_datasets",
    "Albatross.C73_subset_of_concatenation"
   ],
   "note": ""
  },
  {
   "property": "C74",
   "status": "partial",
   "theorems": [
    "Albatross.C74_normal_return_partial",
    "Albatross.C74_exception_leaves_tasks_running"
   ],
   "note": "False of the code when a call throws (C74_exception_leaves_tasks_running); proved for normal return."
  },
  {
   "property": "C75",
   "status": "partial",
   "theorems": [
    "Albatross.C75_scaling_partial",
    "Albatross.C75_scaled_psd_partial",
    "Albatross.C75_measurement_not_scaled"
   ],
   "note": "False of the code when exactly one feature is wrapped (C75_measurement_not_scaled); the partial theorems cover all other cases."
  },
  {
   "property": "C76",
   "status": "partial",
   "theorems": [
    "Albatross.C76_code_value",
    "Albatross.C76_rebase_partial",
    "Albatross.C76_false"
   ],
   "note": "False with a mean function (added twice, C76_false); proved with zero mean up to the default nugget 1e-8 which the code adds; C76_code_value states what is computed in general."
  },
  {
   "property": "C77",
   "status": "partial",
   "theorems": [
    "Albatross.C77_grouper_partial",
    "Albatross.C77_inducing_false"
   ],
   "note": "set_inducing_point_strategy assigns its argument to itself (C77_inducing_false); set_grouper_function proved."
  },
  {
   "property": "C78",
   "status": "proved",
   "theorems": [
    "Albatross.C78_ransac_fit"
   ],
   "note": "After ransac returned; the wrapped model's fit is an arbitrary function of the dataset."
  },
  {
   "property": "C79",
   "status": "proved",
   "theorems": [
    "Albatross.C79_exactness",
    "Albatross.C79_tables",
    "Albatross.C79_rescaled",
    "Albatross.C79_code_sum"
   ],
   "note": "The tables as exact decimals; moments checked by the kernel in integer arithmetic, then all polynomials by linearity; rescaled rule; the recursion equals the rule."
  },
  {
   "property": "C80",
   "status": "proved",
   "theorems": [
    "Albatross.C80_objective",
    "Albatross.C80_gradient",
    "Albatross.C80_mean",
    "Albatross.C80_no_datasets",
    "Albatross.C80_model",
    "Albatross.C80_invalid_stops"
   ],
   "note": "nlopt itself is a parameter (any function of vectors); gradients under the hypotheses of C53_forward_partial."
  },
  {
   "property": "C81",
   "status": "partial",
   "theorems": [
    "Albatross.C81_grid_partial",
    "Albatross.C81_every_input_close",
    "Albatross.C81_density_false",
    "Albatross.C81_empty",
    "Albatross.C81_zero_length_scale"
   ],
   "note": "Range, number of points, regular spacing of at most 1.5 nominal spacings, and every input within 0.75 nominal spacings of a grid point are proved; the nominal spacing of the source comment is refuted (C81_density_false). Empty inputs are UB, a zero length scale asserts or is UB."
  },
  {
   "property": "C82",
   "status": "partial",
   "theorems": [
    "Albatross.C82_principal_sqrt",
    "Albatross.C82_wasserstein_least",
    "Albatross.C82_wasserstein_zero_iff",
    "Albatross.C82_wasserstein_shift",
    "Albatross.C82_wasserstein_symm",
    "Albatross.C82_wasserstein_triangle",
    "Albatross.C82_negative_reported_partial",
    "Albatross.C82_only_small_negative_clamped_false",
    "Albatross.C82_wasserstein_one_dimension"
   ],
   "note": "Everything is proved for positive semidefinite covariances and exact arithmetic. The last sentence is false: without a positive eigenvalue all negative eigenvalues are clamped (C82_only_small_negative_clamped_false); C82_negative_reported_partial is the case with a positive eigenvalue."
  },
  {
   "property": "C83",
   "status": "partial",
   "theorems": [
    "Albatross.C83_euclidean",
    "Albatross.C83_radial",
    "Albatross.C83_angular",
    "Albatross.C83_angular_symm",
    "Albatross.C83_angular_scale",
    "Albatross.C83_angular_zero",
    "Albatross.C83_angular_triangle_partial",
    "Albatross.C83_angular_triangle_false",
    "Albatross.C83_distance_matrix"
   ],
   "note": "The exact triangle inequality of the angular distance is false (C83_angular_triangle_false): angles of 1e-8 are rounded to 0, angles of 2e-8 are not. Proved with a slack of 9e-8. Rounding of doubles is not modelled."
  },
  {
   "property": "C84",
   "status": "proved",
   "theorems": [
    "Albatross.C84_vertical_stack",
    "Albatross.C84_vertical_stack_errors",
    "Albatross.C84_solve_exact",
    "Albatross.C84_solve_least_squares",
    "Albatross.C84_solve_residual",
    "Albatross.C84_solve_unique"
   ],
   "note": "Eigen's eigen solver is a contract (orthonormal eigenvectors). A threshold <= 0 may divide by a zero eigenvalue: the model returns none and nothing is claimed. Rounding not modelled."
  },
  {
   "property": "C85",
   "status": "proved",
   "theorems": [
    "Albatross.C85_to_variants",
    "Albatross.C85_extract",
    "Albatross.C85_round_trip",
    "Albatross.C85_extract_counts",
    "Albatross.C85_extract_dataset"
   ],
   "note": "Variants are tagged values over an arbitrary family of types."
  },
  {
   "property": "C86",
   "status": "proved",
   "theorems": [
    "Albatross.C86_available",
    "Albatross.C86_direct",
    "Albatross.C86_forms_agree",
    "Albatross.C86_empty",
    "Albatross.C86_gp_coherent",
    "Albatross.C86_signal_plus_noise",
    "Albatross.C86_measurement_noise",
    "Albatross.C86_training_noise"
   ],
   "note": "The noise theorem is for fits on features which are not wrapped in Measurement by the caller."
  },
  {
   "property": "C87",
   "status": "partial",
   "theorems": [
    "Albatross.C87_inlier_metric_conditional",
    "Albatross.C87_consensus_on_members",
    "Albatross.C87_feature_count",
    "Albatross.C87_chi_squared_accepts",
    "Albatross.C87_always_accept",
    "Albatross.C87_unknown_group",
    "Albatross.C87_sizes",
    "Albatross.C87_fit_is_model_fit",
    "Albatross.C87_matches_model_partial",
    "Albatross.C87_matches_model_false",
    "Albatross.C87_functions_return",
    "Albatross.C87_gp_ransac",
    "Albatross.C87_generic",
    "Albatross.C87_entropy_metric_partial",
    "Albatross.C87_chi_squared_metric"
   ],
   "note": "proved for datasets without repeated features; with a repeated feature the strategy explains the noise of one observation with another (C87_matches_model_false)"
  },
  {
   "property": "C88",
   "status": "partial",
   "theorems": [
    "Albatross.C88_scores_partial",
    "Albatross.C88_gp_fold_scores",
    "Albatross.C88_gp_false",
    "Albatross.C88_fold_scores",
    "Albatross.C88_scores",
    "Albatross.C88_leave_one_out",
    "Albatross.C88_grouped"
   ],
   "note": "per group, leave one out, grouped and fold versions for every model that is refitted (C88_scores_partial). Models with their own cross_validated_predictions are scored differently with a dataset than with its folds: for Gaussian processes C89_gp_scores against C88_gp_fold_scores, different by C88_gp_false"
  },
  {
   "property": "C89",
   "status": "partial",
   "theorems": [
    "Albatross.C89_gp_scores",
    "Albatross.C89_gp_likelihood",
    "Albatross.C89_gp_likelihood_false",
    "Albatross.C89_nll_joint",
    "Albatross.C89_nll_marginal",
    "Albatross.C89_size_mismatch",
    "Albatross.C89_loo_likelihood_joint",
    "Albatross.C89_loo_likelihood_marginal",
    "Albatross.C89_group_likelihood",
    "Albatross.C89_rmse_partial",
    "Albatross.C89_rmse_false"
   ],
   "note": "the likelihood metrics are proved for refitted models; for Gaussian processes the variance of a target is counted twice (C89_gp_likelihood, C89_gp_likelihood_false); LeaveOneOutRMSE is the mean absolute error (C89_rmse_false, C89_rmse_partial)"
  },
  {
   "property": "C90",
   "status": "partial",
   "theorems": [
    "Albatross.C90_sparse_partial",
    "Albatross.C90_complex_overflow",
    "Albatross.C90_no_values",
    "Albatross.C90_no_counts",
    "Albatross.C90_stale_counts",
    "Albatross.C90_round_trip_false",
    "Albatross.C90_dense",
    "Albatross.C90_common",
    "Albatross.C90_common_gpu",
    "Albatross.C90_spqr_partial",
    "Albatross.C90_spqr_factor_lost",
    "Albatross.C90_spqr_empty",
    "Albatross.C90_spqr_no_permutation",
    "Albatross.C90_array_size"
   ],
   "note": "Dense matrices, the settings of CHOLMOD, real sparse matrices and decompositions whose R factor is not cached are proved to round trip. The full claim is refuted: complex sparse matrices overflow the block allocated for their values, matrices without values or counts do not load from text archives, counts of the target survive, a cached R factor comes back as a different matrix, and saving an empty decomposition or one without column permutation reads through null."
  },
  {
   "property": "C91",
   "status": "partial",
   "theorems": [
    "Albatross.C91_variant",
    "Albatross.C91_bad_index",
    "Albatross.C91_type_name_ignored",
    "Albatross.C91_type_checked_false",
    "Albatross.C91_priors",
    "Albatross.C91_prior",
    "Albatross.C91_parameter",
    "Albatross.C91_store"
   ],
   "note": "round trips proved for every variant, prior, parameter and store; the claim that the saved type is checked is refuted with a witness"
  },
  {
   "property": "C92",
   "status": "partial",
   "theorems": [
    "Albatross.C92_permutation",
    "Albatross.C92_diagonal",
    "Albatross.C92_ldlt_partial",
    "Albatross.C92_ldlt_norm_false",
    "Albatross.C92_marginal",
    "Albatross.C92_joint",
    "Albatross.C92_dataset",
    "Albatross.C92_combination",
    "Albatross.C92_block",
    "Albatross.C92_explained",
    "Albatross.C92_direct",
    "Albatross.C92_gp_fit",
    "Albatross.C92_gp_fit_ldlt_partial",
    "Albatross.C92_sparse_fit",
    "Albatross.C92_sparse_fit_partial",
    "Albatross.C92_sparse_fit_false",
    "Albatross.C92_least_squares",
    "Albatross.C92_fit_model",
    "Albatross.C92_iteration",
    "Albatross.C92_ransac_output",
    "Albatross.C92_ransac_fit",
    "Albatross.C92_model_partial",
    "Albatross.C92_gp_partial",
    "Albatross.C92_unknown_parameter",
    "Albatross.C92_model_false",
    "Albatross.C92_pool_partial",
    "Albatross.C92_pool_false",
    "Albatross.C92_metric",
    "Albatross.C92_fit_model_after",
    "Albatross.C92_vector_elements",
    "Albatross.C92_archive_end",
    "Albatross.C92_pool_count",
    "Albatross.C92_by_name",
    "Albatross.C92_any_order",
    "Albatross.C92_wrong_kind",
    "Albatross.C92_element_names"
   ],
   "note": "round trips proved; refuted with witnesses for the LDLT norm, the numerical rank of sparse fits, the configuration of models and pools of one thread; _partial theorems say exactly what survives"
  },
  {
   "property": "C93",
   "status": "proved",
   "theorems": [
    "Albatross.C93_fraction_exact",
    "Albatross.C93_accuracy_partial",
    "Albatross.C93_chi_squared_partial",
    "Albatross.C93_small_argument_limit",
    "Albatross.C93_never_below",
    "Albatross.C93_accuracy_uniform_partial",
    "Albatross.C93_chi_squared_uniform_partial",
    "Albatross.C93_quadrature_accuracy",
    "Albatross.C93_quadrature_infinite",
    "Albatross.C93_accuracy",
    "Albatross.C93_chi_squared_accuracy"
   ],
   "note": "Exact arithmetic. C93_accuracy and C93_chi_squared_accuracy are the whole statement; the theorems with suffix _partial are its steps below shape ten. C93_small_argument_limit: below machine epsilon the code returns 0, off by more than 1e-9 at a = 1/2, so the bound cannot be made much smaller there. Shapes between machine epsilon and 1/2 have only C93_never_below."
  },
  {
   "property": "C94",
   "status": "partial",
   "theorems": [
    "Albatross.C94_bounds",
    "Albatross.C94_in_bounds_has_density_partial",
    "Albatross.C94_log_normal_false",
    "Albatross.C94_support_is_bounds",
    "Albatross.C94_positive_gap_false",
    "Albatross.C94_positive_gaussian_false",
    "Albatross.C94_clamped_has_density"
   ],
   "note": "In bounds implies finite density for all but the log normal prior (C94_log_normal_false); the converse holds for uniform and non-negative priors and fails for positive (C94_positive_gap_false) and positive Gaussian (C94_positive_gaussian_false)."
  },
  {
   "property": "C95",
   "status": "partial",
   "theorems": [
    "Albatross.C95_code_names",
    "Albatross.C95_default_refuses",
    "Albatross.C95_fit_and_predict",
    "Albatross.C95_sizes_constructor_stops_at_first_rejection",
    "Albatross.C95_short_forms_agree_partial",
    "Albatross.C95_short_forms_false",
    "Albatross.C95_name",
    "Albatross.C95_success"
   ],
   "note": "The short constructor sets max_failed_candidates to 0 while the short free function allows max_iterations of them, so the two differ (C95_short_forms_false); they agree when no candidate is rejected (C95_short_forms_agree_partial). The streaming operators are not modelled."
  },
  {
   "property": "C96",
   "status": "partial",
   "theorems": [
    "Albatross.C96_trace",
    "Albatross.C96_trace_readable",
    "Albatross.C96_trace_names_partial",
    "Albatross.C96_trace_names_false",
    "Albatross.C96_small_values",
    "Albatross.C96_small_values_false",
    "Albatross.C96_ssr_partial",
    "Albatross.C96_scaled_ssr",
    "Albatross.C96_ssr_false",
    "Albatross.C96_constant_left_out",
    "Albatross.C96_uniform_points",
    "Albatross.C96_uniform_points_degenerate",
    "Albatross.C96_names",
    "Albatross.C96_scaled_tree"
   ],
   "note": "Composite lines show the name of a default constructed composition (C96_trace_names_false), leaf values are printed with six decimals so a variance of 1e-8 shows as zero (C96_small_values_false), and products with scaling terms define no state space representation so their points are silently left out of a sum (C96_scaled_ssr, C96_ssr_false), as is the constant (C96_constant_left_out). Printing of the table is not modelled."
  },
  {
   "property": "C97",
   "status": "proved",
   "theorems": [
    "Albatross.C97_min_max",
    "Albatross.C97_empty",
    "Albatross.C97_min_nan_limit",
    "Albatross.C97_first_last",
    "Albatross.C97_all_any",
    "Albatross.C97_sum",
    "Albatross.C97_sum_size",
    "Albatross.C97_counts_sum",
    "Albatross.C97_mean",
    "Albatross.C97_mean_size",
    "Albatross.C97_mean_empty",
    "Albatross.C97_combine_doubles",
    "Albatross.C97_combine_vectors",
    "Albatross.C97_index_apply_fault",
    "Albatross.C97_index_apply",
    "Albatross.C97_with",
    "Albatross.C97_with_mismatch",
    "Albatross.C97_with_ndebug",
    "Albatross.C97_with_map",
    "Albatross.C97_with_map_size",
    "Albatross.C97_with_map_missing",
    "Albatross.C97_keys_size",
    "Albatross.C97_apply",
    "Albatross.C97_filter"
   ],
   "note": "A NaN under the smallest key is returned by min (C97_min_nan_limit); the reductions are undefined on an empty grouping (C97_empty) and the mean of an empty grouping is 0."
  },
  {
   "property": "C98",
   "status": "partial",
   "theorems": [
    "Albatross.C98_available",
    "Albatross.C98_has",
    "Albatross.C98_refit",
    "Albatross.C98_mean_in_order",
    "Albatross.C98_marginal_in_order",
    "Albatross.C98_get_partial",
    "Albatross.C98_get_false",
    "Albatross.C98_scores",
    "Albatross.C98_scores_folds",
    "Albatross.C98_gp_closed_form",
    "Albatross.C98_gp_refit",
    "Albatross.C98_gp_means_agree",
    "Albatross.C98_gp_joints_false",
    "Albatross.C98_conversions"
   ],
   "note": "proved: which overload is used, refitting per group, order of mean() and marginal(), scores; for Gaussian processes the means agree and the closed form's covariance is the refitted one plus measurement noise and target variance (C98_gp_closed_form), so distributions differ (C98_gp_joints_false); get for a map of joint distributions does not compile (C98_get_false, C98_get_partial)"
  },
  {
   "property": "C99",
   "status": "partial",
   "theorems": [
    "Albatross.C99_llt",
    "Albatross.C99_random_fill",
    "Albatross.C99_random_covariance",
    "Albatross.C99_multivariate_normal_partial",
    "Albatross.C99_multivariate_normal_zero",
    "Albatross.C99_multivariate_normal_sizes",
    "Albatross.C99_multivariate_normal_singular_false",
    "Albatross.C99_sparse_partial",
    "Albatross.C99_sparse_returns",
    "Albatross.C99_sparse_overfull_false",
    "Albatross.C99_sparse_empty_false",
    "Albatross.C99_sparse_bad_fill",
    "Albatross.C99_triplets"
   ],
   "note": "Proved: random_fill (C99_random_fill), random_covariance_matrix for any orthogonal Q (characteristic polynomial, definiteness), Eigen's Cholesky loop for every positive definite matrix, the normal law of the samples when the covariance is positive definite, the size checks, the structure of every sparse matrix returned, and that a fill in [0, 1] can always finish. False of the code and refuted with witnesses: a singular covariance (the decomposition stops and info() is not looked at, so the samples have another law), a fill above one (the call never returns), a matrix without rows or columns (undefined behaviour)."
  },
  {
   "property": "C100",
   "status": "proved",
   "theorems": [
    "Albatross.C100_text",
    "Albatross.C100_best",
    "Albatross.C100_never",
    "Albatross.C100_wrong_length"
   ],
   "note": "C100_best gives the tracked likelihood and parameters, C100_text the text, C100_never NaN and minus infinity, C100_wrong_length the outcome for vectors of the wrong length."
  },
  {
   "property": "C101",
   "status": "partial",
   "theorems": [
    "Albatross.C101_params_partial",
    "Albatross.C101_params_injective",
    "Albatross.C101_quote_false",
    "Albatross.C101_precision_false",
    "Albatross.C101_priors_partial",
    "Albatross.C101_details",
    "Albatross.C101_details_empty",
    "Albatross.C101_details_invalid",
    "Albatross.C101_number_texts"
   ],
   "note": "False of the code in two ways: a name with a quotation mark makes one parameter print like two (C101_quote_false), and 13 significant digits do not separate neighbouring doubles (C101_precision_false). For names that can stand in a string literal C101_params_partial gives the unique reading with relative error at most 5e-13, exact for values of at most 13 digits; C101_priors_partial the same for priors with 5e-6. C101_details covers the aligned details; on an empty set they dereference the end of the map (C101_details_empty), which the tuner never does (C101_details_invalid)."
  },
  {
   "property": "C102",
   "status": "partial",
   "theorems": [
    "Albatross.C102_equal_partial",
    "Albatross.C102_reflexive",
    "Albatross.C102_symmetric",
    "Albatross.C102_transitive",
    "Albatross.C102_never_both",
    "Albatross.C102_not_equal_partial",
    "Albatross.C102_uniform_false",
    "Albatross.C102_not_equal_false",
    "Albatross.C102_nan",
    "Albatross.C102_parameters",
    "Albatross.C102_stores",
    "Albatross.C102_stores_exact"
   ],
   "note": "False of the code: uniform and log scale uniform priors are compared by a name with six digits, so different bounds compare equal although a value is valid for one and invalid for the other (C102_uniform_false); != of containers compares names even for Gaussian priors, so two priors can be neither equal nor unequal (C102_not_equal_false). C102_equal_partial: equal priors have the same kind and numbers within 5e-6, and are the same if compared by number or of at most six digits; C102_reflexive, C102_symmetric, C102_transitive, C102_never_both, C102_parameters, C102_stores and C102_stores_exact hold for all."
  },
  {
   "property": "C103",
   "status": "proved",
   "theorems": [
    "Albatross.C103_small",
    "Albatross.C103_large",
    "Albatross.C103_count_too_large",
    "Albatross.C103_empty",
    "Albatross.C103_asymmetric",
    "Albatross.C103_right_aligned"
   ],
   "note": "C103_small and C103_large. Outside the stated range: a count above the number of rows reads past the end of the pairs (C103_count_too_large), an empty matrix fails the assertion of minCoeff (C103_empty), and for a matrix that is not symmetric the solver only reads the lower triangle, so that no printed value need be an eigenvalue (C103_asymmetric). Entries are exact reals."
  },
  {
   "property": "C104",
   "status": "proved",
   "theorems": [
    "Albatross.Handler.C104_value_if_exists",
    "Albatross.Handler.C104_values_if_exists",
    "Albatross.Handler.C104_set_params_unknown",
    "Albatross.Handler.C104_in_any_found",
    "Albatross.Handler.C104_in_any_missing",
    "Albatross.Handler.C104_in_any_answer",
    "Albatross.Handler.C104_composites"
   ],
   "note": "C104_value_if_exists, C104_values_if_exists, C104_in_any_found, C104_in_any_missing, C104_in_any_answer, C104_composites, C104_set_params_unknown. Objects with shared names are the subject of C25."
  },
  {
   "property": "C105",
   "status": "partial",
   "theorems": [
    "Albatross.C105_count",
    "Albatross.C105_serial",
    "Albatross.C105_saved",
    "Albatross.C105_spqr_threads_partial",
    "Albatross.C105_spqr_threads_false",
    "Albatross.C105_cast"
   ],
   "note": "C105_count, C105_serial and C105_saved hold in full. C105_spqr_threads_partial needs n other than 1: for one thread there is no pool and SPQR_set_threads leaves the thread count of the QR as it was (C105_spqr_threads_false). Counts from 2^31 on are changed by the cast to int (C105_cast)."
  },
  {
   "property": "C106",
   "status": "partial",
   "theorems": [
    "Albatross.C106_small",
    "Albatross.C106_large",
    "Albatross.C106_zero",
    "Albatross.C106_nan",
    "Albatross.C106_scales_partial",
    "Albatross.C106_tighter_partial",
    "Albatross.C106_small_false"
   ],
   "note": "C106_large, C106_zero, C106_nan, C106_scales_partial and C106_tighter_partial (a factor of 200) cover matrices with at least 300 rows and columns. Below, the threshold is 1e-15 whatever the matrix (C106_small), so the claim is false: for a small multiple of the identity the threshold exceeds SuiteSparseQR's default and every column, so that the matrix counts as zero (C106_small_false)."
  },
  {
   "property": "C107",
   "status": "partial",
   "theorems": [
    "Albatross.C107_edge_partial",
    "Albatross.C107_measurement_partial",
    "Albatross.C107_marginal_partial",
    "Albatross.C107_dataset_partial",
    "Albatross.C107_iteration_partial",
    "Albatross.C107_output_partial",
    "Albatross.C107_graph_partial",
    "Albatross.C107_graph_false",
    "Albatross.C107_joint_partial",
    "Albatross.C107_joint_false"
   ],
   "note": "False for Graph and JointDistribution (C107_graph_false, C107_joint_false): their operators ignore the stream on the left and write to std::cout. Proved for the other types, with the exact text appended."
  },
  {
   "property": "C108",
   "status": "proved",
   "theorems": [
    "Albatross.C108_table",
    "Albatross.C108_aligned",
    "Albatross.C108_to_string",
    "Albatross.C108_headings"
   ],
   "note": "Text of the table, alignment and the heading; numbers are those of std::to_string."
  },
  {
   "property": "C109",
   "status": "partial",
   "theorems": [
    "Albatross.C109_lookup",
    "Albatross.C109_columns_partial",
    "Albatross.C109_dotted_injective",
    "Albatross.C109_empty_false",
    "Albatross.C109_collision_false",
    "Albatross.C109_target_false",
    "Albatross.C109_double"
   ],
   "note": "False for empty values, which have no column (C109_empty_false), for names with dots, where the later value overwrites the earlier (C109_collision_false), and for members called target, prediction etc. (C109_target_false). Exact contents of the map proved for all trees (C109_lookup); the claim holds when values are not empty and dotted names differ, for which names without dots and different sibling names are enough (C109_dotted_injective)."
  },
  {
   "property": "C110",
   "status": "partial",
   "theorems": [
    "Albatross.C110_optimizer",
    "Albatross.C110_run_partial",
    "Albatross.C110_failure_false",
    "Albatross.C110_outside",
    "Albatross.C110_model_tuner",
    "Albatross.C110_stale_optimizer",
    "Albatross.C110_result_text",
    "Albatross.C110_failure",
    "Albatross.C110_report"
   ],
   "note": "False for runs that end with a failure code such as roundoff limited: the C++ interface of NLopt throws and the best parameters are lost (C110_failure_false). Proved for all other runs. Parameters outside of their bounds and a tuner whose model was replaced by one with another number of parameters stop in an assertion or in NLopt."
  },
  {
   "property": "C111",
   "status": "partial",
   "theorems": [
    "Albatross.C111_immediate",
    "Albatross.C111_moved_into_prediction",
    "Albatross.C111_temporary",
    "Albatross.C111_reference_partial",
    "Albatross.C111_reference",
    "Albatross.C111_temporary_false",
    "Albatross.C111_temporary_runs",
    "Albatross.C111_named_false",
    "Albatross.C111_update",
    "Albatross.C111_updates",
    "Albatross.C111_untouched"
   ],
   "note": "False as stated: predict_with_measurement_noise on a temporary, and predict on a const temporary, return a prediction that refers to the dead temporary, so every later use is undefined behaviour (C111_temporary_false); predictions of a named fitted model follow later changes of it (C111_named_false). Proved: predictions evaluated where they are made, from rvalues and from temporaries are right for ever; the others as long as nothing touches the fitted model; updates."
  },
  {
   "property": "C112",
   "status": "partial",
   "theorems": [
    "Albatross.C112_meaning",
    "Albatross.C112_equivalence",
    "Albatross.C112_gp_partial",
    "Albatross.C112_rest",
    "Albatross.C112_ransac",
    "Albatross.C112_ransac_false",
    "Albatross.C112_shared_false",
    "Albatross.C112_sparse_false",
    "Albatross.C112_name",
    "Albatross.C112_name_ambiguous",
    "Albatross.C112_fit_model"
   ],
   "note": "False as stated: strategy and configuration of a Ransac do not count (C112_ransac_false), nor does the inducing point strategy of a sparse Gaussian process (C112_sparse_false), nor a parameter hidden by another of the same name (C112_shared_false); a model with a NaN parameter differs from itself. Proved: the exact meaning of the comparison, symmetry, transitivity, reflexivity without NaN, and that all values agree where no two parts share a name."
  },
  {
   "property": "C113",
   "status": "partial",
   "theorems": [
    "Albatross.C113_computes_partial",
    "Albatross.C113_mean_computes_partial",
    "Albatross.C113_set_partial",
    "Albatross.C113_set_params_partial",
    "Albatross.C113_gp_partial",
    "Albatross.C113_psd",
    "Albatross.C113_defaults",
    "Albatross.C113_mean_defaults",
    "Albatross.C113_arguments",
    "Albatross.C113_arguments_rest",
    "Albatross.C113_polynomial_terms",
    "Albatross.C113_shared_false",
    "Albatross.C113_default_values"
   ],
   "note": "False when a name occurs twice: the sum of two constants goes on showing the value of the right one after set_param has changed the left one (C113_shared_false). Proved for objects without a shared name; positive semi-definiteness, defaults and constructors without that restriction. Features are doubles with EuclideanDistance; infinite and NaN parameters are not modelled in a call."
  },
  {
   "property": "C114",
   "status": "partial",
   "theorems": [
    "Albatross.C114_difference_partial",
    "Albatross.C114_intersect_partial",
    "Albatross.C114_symmetric_difference_partial",
    "Albatross.C114_union_partial",
    "Albatross.C114_keys",
    "Albatross.C114_subset_partial",
    "Albatross.C114_subset_sorted_partial",
    "Albatross.C114_join",
    "Albatross.C114_state_false",
    "Albatross.C114_requery_false",
    "Albatross.C114_conversion_false"
   ],
   "note": "Full claim false. C114_state_false: the result is made with a default comparator, and entries are lost although both maps have the same state; C114_requery_false: the result does not work together with the map it comes from; C114_conversion_false: a one to one conversion of keys is not enough. The _partial theorems hold when the default comparator tells apart what the map's comparator does and a converted key is the same key for the comparator."
  },
  {
   "property": "C115",
   "status": "partial",
   "theorems": [
    "Albatross.C115_predict_partial",
    "Albatross.C115_invertible",
    "Albatross.C115_tune_partial",
    "Albatross.C115_variance_false",
    "Albatross.C115_objective_fails"
   ],
   "note": "Full claim false. C115_variance_false: with variances the tuner prefers the worse parameters. C115_predict_partial and C115_tune_partial prove the rest for models without a name used twice (C113_shared_false shows what happens otherwise); C115_invertible says when the covariance is invertible."
  },
  {
   "property": "C116",
   "status": "partial",
   "theorems": [
    "Albatross.C116_factory",
    "Albatross.C116_code_value",
    "Albatross.C116_predict_partial",
    "Albatross.C116_mean_false",
    "Albatross.C116_inducing_points"
   ],
   "note": "Full claim false. C116_mean_false: with a mean function that is not zero at the training points the targets are not centred, the prediction is that for targets with the mean added once more (C116_code_value). C116_predict_partial proves the rest for models without a name used twice; C116_factory for what the factories make."
  },
  {
   "property": "C117",
   "status": "proved",
   "theorems": [
    "Albatross.C117_crps",
    "Albatross.C117_log_score",
    "Albatross.C117_log_score_marginal",
    "Albatross.C117_variogram",
    "Albatross.C117_variogram_not_strict",
    "Albatross.C117_measured",
    "Albatross.C117_energy_nonneg"
   ],
   "note": "C117_log_score, C117_log_score_marginal, C117_crps (strictly proper), C117_variogram (proper, with the exact condition for a tie), C117_variogram_not_strict, C117_measured, C117_energy_nonneg. The energy score is not claimed to be proper: its weights are wrong (C61) and it is a Monte Carlo estimate."
  },
  {
   "property": "C118",
   "status": "proved",
   "theorems": [
    "Albatross.C118_calibrated",
    "Albatross.C118_best_linear",
    "Albatross.C118_normal",
    "Albatross.C118_best",
    "Albatross.C118_more_data"
   ],
   "note": "C118_calibrated, C118_best_linear, C118_normal, C118_best, C118_more_data. The decomposition is assumed to factor the covariance of the targets, which is assumed invertible (positive definite for C118_more_data)."
  },
  {
   "property": "C119",
   "status": "proved",
   "theorems": [
    "Albatross.C119_probability",
    "Albatross.C119_uniform",
    "Albatross.C119_candidate",
    "Albatross.C119_wrong_covariance",
    "Albatross.C119_gp"
   ],
   "note": "C119_probability, C119_uniform, C119_candidate, C119_wrong_covariance, C119_gp. Values in exact arithmetic with the code's rounded table of nodes and weights, as for C93."
  },
  {
   "property": "C120",
   "status": "proved",
   "theorems": [
    "Albatross.C120_step",
    "Albatross.C120_chain"
   ],
   "note": "C120_step, C120_chain. Exact arithmetic; the random engine delivers independent uniform draws, of which the code's distributions make a partner, a factor and an acceptance threshold."
  },
  {
   "property": "C121",
   "status": "proved",
   "theorems": [
    "Albatross.C121_equally_likely",
    "Albatross.C121_uniform",
    "Albatross.C121_no_clean_sample",
    "Albatross.C121_returns"
   ],
   "note": "C121_equally_likely, C121_uniform, C121_returns, C121_no_clean_sample. The distribution object is any function of the range and one output that is fair; std::uniform_int_distribution may use several outputs for a value."
  },
  {
   "property": "C122",
   "status": "proved",
   "theorems": [
    "Albatross.C122_probability",
    "Albatross.C122_textbook",
    "Albatross.C122_iterations"
   ],
   "note": "C122_probability, C122_textbook, C122_iterations. The supplied functions are pure; probabilities are over the outputs of the engine, which the code seeds in the same way in every call."
  },
  {
   "property": "C123",
   "status": "partial",
   "theorems": [
    "Albatross.C123_errors",
    "Albatross.C123_uniform",
    "Albatross.C123_measuring_noise",
    "Albatross.C123_closed_form_partial",
    "Albatross.C123_closed_form_false"
   ],
   "note": "The uniform law is false of the code for scoring a dataset with the Gaussian process's own cross validation: the variances of the targets count twice (C123_closed_form_false); C123_closed_form_partial shows that the scores are then stochastically too small, and uniform for groups without target variances. Proved in full: C123_errors; C123_uniform for scoring folds and for models without specialised cross validation, if measuring adds nothing but the target variances; C123_measuring_noise: otherwise these scores are too large."
  },
  {
   "property": "C124",
   "status": "proved",
   "theorems": [
    "Albatross.C124_row_order",
    "Albatross.C124_one_batch",
    "Albatross.C124_batches",
    "Albatross.C124_from_nothing",
    "Albatross.C124_any_order",
    "Albatross.C124_permuted_batches",
    "Albatross.C124_log_likelihood",
    "Albatross.C124_shared_errors_false"
   ],
   "note": "C124_shared_errors_false: the hypothesis is needed, the same feature measured twice shares an error in the covariance of the data but not in the prediction. C124_log_likelihood needs target variances of zero because log_likelihood ignores them (C39)."
  },
  {
   "property": "C125",
   "status": "partial",
   "theorems": [
    "Albatross.C125_likelihood_partial",
    "Albatross.C125_likelihood_best",
    "Albatross.C125_cross_validation",
    "Albatross.C125_closed_form_partial",
    "Albatross.C125_leave_one_out_partial",
    "Albatross.C125_likelihood_variance_false",
    "Albatross.C125_leave_one_out_variance_false"
   ],
   "note": "False with target variances, which log_likelihood ignores and the closed form of cross validation counts twice: C125_likelihood_variance_false (a process of variance two beats the true one of variance one), C125_leave_one_out_variance_false (a process of variance zero beats the true one). C125_likelihood_best says which processes are best then. C125_cross_validation (refitting, any variances) needs that measuring adds nothing but the errors of the targets."
  },
  {
   "property": "C126",
   "status": "proved",
   "theorems": [
    "Albatross.C126_cross_validation",
    "Albatross.C126_any_predictor",
    "Albatross.C126_leave_one_out",
    "Albatross.C126_scale",
    "Albatross.C126_not_normal_false"
   ],
   "note": "Needs the normal law: C126_not_normal_false has targets with the right means and covariances for which another process has a smaller expected score."
  },
  {
   "property": "C127",
   "status": "partial",
   "theorems": [
    "Albatross.C127_inner_product",
    "Albatross.C127_angle",
    "Albatross.C127_angle_refused",
    "Albatross.C127_metrics",
    "Albatross.C127_angular_partial",
    "Albatross.C127_angular_false",
    "Albatross.C127_angular_zero",
    "Albatross.C127_no_length_scale"
   ],
   "note": "The last claim is false of the code: C127_angular_false gives, for every length scale and sigma, three unit vectors with a negative quadratic form, because angular_distance rounds an angle of 1e-8 to zero and does not round 2e-8. C127_angular_partial bounds the violation by sigma^2 3e-8 / l times the squared sum of the absolute weights and shows there is none when no angle is rounded. A zero vector gives NaN or stops a debug build (C127_angular_zero). Everything else is proved."
  },
  {
   "property": "C128",
   "status": "proved",
   "theorems": [
    "Albatross.C128_leftover",
    "Albatross.C128_close",
    "Albatross.C128_grid",
    "Albatross.C128_state_space"
   ],
   "note": "For models without a mean function (with one the sparse model is wrong, C37) and with a positive inducing nugget (the default is 1e-8). The measurement nugget of the sparse model counts as noise of the dense one. Measured and plain features must have the same covariance with the prediction points."
  },
  {
   "property": "C129",
   "status": "partial",
   "theorems": [
    "Albatross.C129_in_variant",
    "Albatross.C129_variants_partial",
    "Albatross.C129_variants_false",
    "Albatross.C129_not_sub_variant",
    "Albatross.C129_set_variant_partial",
    "Albatross.C129_set_variant_false",
    "Albatross.C129_concatenation",
    "Albatross.C129_concatenation_missing",
    "Albatross.C129_merge_partial",
    "Albatross.C129_merge_false",
    "Albatross.C129_project_key_false",
    "Albatross.C129_call_impl",
    "Albatross.C129_variant_pair",
    "Albatross.C129_cross",
    "Albatross.C129_variant_caller_partial",
    "Albatross.C129_variant_caller_false",
    "Albatross.C129_variant_mean",
    "Albatross.C129_basic"
   ],
   "note": "False of the code in four places, each with a witness: alternatives which are variants end the recursion of variant_any and variant_all, so a variant of a variant is a sub variant of everything (C129_variants_false, C129_set_variant_false); map_union_traits has no definition for functions that cannot be called, so the explanation of map_union is never reached (C129_merge_false); can_project_key is always true (C129_project_key_false); two variants with the same alternatives in another order have a valid covariance but not for the caller that unpacks variants (C129_variant_caller_false). The other statements are proved without restriction or for variants without variants among their alternatives."
  },
  {
   "property": "C130",
   "status": "partial",
   "theorems": [
    "Albatross.C130_scaling",
    "Albatross.C130_parameters",
    "Albatross.C130_covariance",
    "Albatross.C130_psd",
    "Albatross.C130_posdef",
    "Albatross.C130_prediction",
    "Albatross.C130_measured_false",
    "Albatross.C130_reading",
    "Albatross.C130_reading_false",
    "Albatross.C130_example",
    "Albatross.C130_constructed"
   ],
   "note": "C130_scaling, C130_parameters, C130_reading: the parts. C130_covariance: what is computed is the described covariance, up to 3e-8/l of its spatial term because small angles are rounded to zero (exactly if they are not). C130_psd, C130_posdef, C130_prediction: the described covariance is one; the matrix of distinct stations is positive definite and the predictions are conditional distributions. C130_example: the whole program with its tuned values and at most 100000 stations. The claim is false in two places: an empty file and thin = 0 are undefined behaviour (C130_reading_false); predict_with_measurement_noise scales only one of the two stations of a covariance, so the predicted measurement at a measured station is not its temperature (C130_measured_false; the example calls predict)."
  },
  {
   "property": "C131",
   "status": "partial",
   "theorems": [
    "Albatross.C131_grid_partial",
    "Albatross.C131_grid_false",
    "Albatross.C131_sinc",
    "Albatross.C131_truth",
    "Albatross.C131_file_partial",
    "Albatross.C131_file_false",
    "Albatross.C131_rounding_false",
    "Albatross.C131_prediction_partial",
    "Albatross.C131_prediction_false",
    "Albatross.C131_parametric",
    "Albatross.C131_parametric_false",
    "Albatross.C131_modes",
    "Albatross.C131_inspection"
   ],
   "note": "The grid needs two points, the file a row, and the predictions distinct inputs: the claims without these conditions are refuted by C131_grid_false, C131_file_false, C131_rounding_false with C131_prediction_false, and C131_parametric_false."
  },
  {
   "property": "C132",
   "status": "partial",
   "theorems": [
    "Albatross.C132_log_likelihood_partial",
    "Albatross.C132_one_group",
    "Albatross.C132_state_space",
    "Albatross.C132_dense_false"
   ],
   "note": "Proved against the dense log density. The comparison with the dense model's log_likelihood is refuted by C132_dense_false."
  },
  {
   "property": "C133",
   "status": "partial",
   "theorems": [
    "Albatross.C133_nugget_lost",
    "Albatross.C133_nugget_counts",
    "Albatross.C133_nugget_false",
    "Albatross.C133_nugget_partial",
    "Albatross.C133_inducing_nugget",
    "Albatross.C133_semidefinite_false"
   ],
   "note": "False for the default Nugget, which is lost in sums with variances of at least one (C133_nugget_lost, C133_nugget_false), and without a nugget (C133_semidefinite_false). C133_nugget_partial and C133_inducing_nugget prove it for nuggets above the errors."
  },
  {
   "property": "C134",
   "status": "partial",
   "theorems": [
    "Albatross.C134_grid_partial",
    "Albatross.C134_last_false",
    "Albatross.C134_angular",
    "Albatross.C134_symmetric_partial",
    "Albatross.C134_symmetric_false"
   ],
   "note": "The last point is refuted by C134_last_false, the symmetry of polynomials by C134_symmetric_false; the rest is proved (C134_grid_partial, C134_angular, C134_symmetric_partial)."
  },
  {
   "property": "C135",
   "status": "proved",
   "theorems": [
    "Albatross.C135_rounded",
    "Albatross.C135_radial",
    "Albatross.C135_inducing",
    "Albatross.C135_nugget"
   ],
   "note": "The accuracy of the mathematics library is a hypothesis (MathFunctions.Accurate), shown to be satisfiable."
  },
  {
   "property": "C136",
   "status": "partial",
   "theorems": [
    "Albatross.C136_rmse",
    "Albatross.C136_standard_deviation_partial",
    "Albatross.C136_constant_false"
   ],
   "note": "The standard deviation of equal numbers is refuted by C136_constant_false; the rest is proved (C136_rmse, C136_standard_deviation_partial)."
  },
  {
   "property": "C137",
   "status": "partial",
   "theorems": [
    "Albatross.C137_marginal",
    "Albatross.C137_one_partial",
    "Albatross.C137_observed",
    "Albatross.C137_negative_false"
   ],
   "note": "That variances are not negative is refuted by C137_negative_false; the rest is proved (C137_marginal, C137_one_partial, C137_observed)."
  },
  {
   "property": "C138",
   "status": "partial",
   "theorems": [
    "Albatross.C138_floor",
    "Albatross.C138_at_inducing",
    "Albatross.C138_truth",
    "Albatross.C138_model",
    "Albatross.C138_groups",
    "Albatross.C138_predictions_partial",
    "Albatross.C138_floor_false",
    "Albatross.C138_example"
   ],
   "note": "That no variance is below the noise is refuted by C138_floor_false; it is proved where it holds (C138_floor, C138_predictions_partial), with what happens at inducing points (C138_at_inducing), the grouping (C138_groups), the constructed model (C138_model), the true function (C138_truth) and reading the file (C138_example)."
  },
  {
   "property": "C139",
   "status": "partial",
   "theorems": [
    "Albatross.C139_shown",
    "Albatross.C139_sum_adds_up",
    "Albatross.C139_product_multiplies_partial",
    "Albatross.C139_product_multiplies_false",
    "Albatross.C139_example"
   ],
   "note": "The relative claim for products is refuted by C139_product_multiplies_false; with the errors of the three lines it is C139_product_multiplies_partial. Sums (C139_sum_adds_up), single lines (C139_shown) and the text of the example (C139_example) are proved. Values are real numbers, rounded only where they are written."
  },
  {
   "property": "C140",
   "status": "partial",
   "theorems": [
    "Albatross.C140_objective_partial",
    "Albatross.C140_improper",
    "Albatross.C140_improper_log_scale",
    "Albatross.C140_test_gp",
    "Albatross.C140_posterior_proper",
    "Albatross.C140_posterior_false",
    "Albatross.C140_leaves_false"
   ],
   "note": "That the objective is not finite outside the bounds is refuted by C140_posterior_false and C140_leaves_false; what it is there and within the bounds is C140_objective_partial. C140_improper is for any model and number of parameters, C140_posterior_proper shows that the posterior itself is proper. The likelihood is over the real numbers."
  },
  {
   "property": "C141",
   "status": "proved",
   "theorems": [
    "Albatross.C141_norm",
    "Albatross.C141_rcond",
    "Albatross.C141_empty"
   ],
   "note": "Exact arithmetic. Eigen's estimate of the norm of the inverse is taken as the norm of a solution for some right hand side of norm one, which covers all three kinds of vectors it uses. A decomposition read from an archive has no norm of its own (C92)."
  },
  {
   "property": "C142",
   "status": "partial",
   "theorems": [
    "Albatross.C142_mean",
    "Albatross.C142_prior",
    "Albatross.C142_expected",
    "Albatross.C142_odd",
    "Albatross.C142_one_partial",
    "Albatross.C142_interpolates_false",
    "Albatross.C142_cancels_false"
   ],
   "note": "The last part is false of the code: with a constant covariance of sigma = 7 and an observation of 1 without noise the mean predicted for the observed feature is the double below 1 (C142_interpolates_false), and with a mean function of 1 an observation of 2^-60 is predicted as 0 (C142_cancels_false). The error of the information of more than one observation is a hypothesis: Eigen's LDLT is not modelled in doubles."
  },
  {
   "property": "C143",
   "status": "partial",
   "theorems": [
    "Albatross.C143_joint",
    "Albatross.C143_diagonal",
    "Albatross.C143_diagonal_order",
    "Albatross.C143_symmetric_partial",
    "Albatross.C143_diagonal_one",
    "Albatross.C143_symmetric_false"
   ],
   "note": "The last part is false of the code: with the linear covariance function and one observation of the feature 5 the covariances predicted between the features 5 and 11 are 0 in one triangle and -2^-47 in the other (C143_symmetric_false); they agree up to the errors of the entries (C143_symmetric_partial). The error of the solution for more than one observation is a hypothesis: Eigen's LDLT is not modelled in doubles."
  },
  {
   "property": "C144",
   "status": "partial",
   "theorems": [
    "Albatross.C144_entries",
    "Albatross.C144_exact",
    "Albatross.C144_definite_partial",
    "Albatross.C144_definite_false"
   ],
   "note": "The last part is false of the code: two observations of one feature of variance 1 have a singular training covariance in doubles for every noise variance below 2^-53 (C144_definite_false). C144_definite_partial says which noise is enough: more than the relative error of the entries times the number of observations and the largest covariance."
  },
  {
   "property": "C145",
   "status": "partial",
   "theorems": [
    "Albatross.C145_nll_partial",
    "Albatross.C145_even",
    "Albatross.C145_monotone",
    "Albatross.C145_relative_false"
   ],
   "note": "The last part is false of the code: at a variance near 1 / (2 pi) the likelihood of a deviation of zero is computed as 0 although it is not (C145_relative_false). The likelihood by an LDLT decomposition is not modelled in doubles."
  },
  {
   "property": "C146",
   "status": "proved",
   "theorems": [
    "Albatross.C146_forward",
    "Albatross.C146_backward",
    "Albatross.C146_pivot",
    "Albatross.C146_residual",
    "Albatross.C146_million"
   ],
   "note": "The factors are taken as computed: how near their product is to the training covariance is not modelled in doubles. The information of a fit (C142) and the explained terms of a prediction (C137, C143) are such solutions; a small residual bounds their error only together with the condition of the matrix."
  }
 ]
}