{
 "claims": [
  {
   "property": "C01",
   "status": "proved",
   "theorems": [
    "MuyGPyS.Mpi.C01_chunk_sizes",
    "MuyGPyS.Mpi.C01_zero_ranks"
   ],
   "note": ""
  },
  {
   "property": "C02",
   "status": "proved",
   "theorems": [
    "MuyGPyS.Mpi.C02_chunk_unchunk",
    "MuyGPyS.Mpi.C02_no_tensor"
   ],
   "note": ""
  },
  {
   "property": "C03",
   "status": "proved",
   "theorems": [
    "MuyGPyS.Mpi.C03_scatter_all_schedules"
   ],
   "note": "FIFO channels between rank 0 and each other rank; every schedule incl. rendezvous-only."
  },
  {
   "property": "C04",
   "status": "partial",
   "theorems": [
    "MuyGPyS.Mpi.C04_rowwise",
    "MuyGPyS.Mpi.C04_rowwise_two",
    "MuyGPyS.Mpi.C04_nested_chunk_fails"
   ],
   "note": "True for row-wise functions on once-chunked tensors; the code violates it for the deformation methods, which chunk twice (counterexample theorem)."
  },
  {
   "property": "C05",
   "status": "partial",
   "theorems": [
    "MuyGPyS.Mpi.C05_mse_pseudo_huber",
    "MuyGPyS.Mpi.C05_lool_looph",
    "MuyGPyS.Mpi.C05_cross_entropy_partial",
    "MuyGPyS.Mpi.C05_cross_entropy_empty_rank_fails",
    "MuyGPyS.Mpi.C05_lool_unscaled_diverges"
   ],
   "note": "Holds for mse, pseudo-Huber, lool, looph; cross entropy needs a row on every rank; lool_fn_unscaled recurses for ever (failure theorems)."
  },
  {
   "property": "C22",
   "status": "proved",
   "theorems": [
    "MuyGPyS.C22_homoscedastic",
    "MuyGPyS.C22_homoscedastic_multi",
    "MuyGPyS.C22_shear",
    "MuyGPyS.C22_heteroscedastic",
    "MuyGPyS.C22_null",
    "MuyGPyS.C22_unsupported_rank",
    "MuyGPyS.C22_bad_blocks"
   ],
   "note": ""
  },
  {
   "property": "C24",
   "status": "partial",
   "theorems": [
    "MuyGPyS.C24_single_response",
    "MuyGPyS.C24_multi_response_partial",
    "MuyGPyS.C24_multi_output",
    "MuyGPyS.C24_singular_is_error",
    "MuyGPyS.C24_model_mean",
    "MuyGPyS.C24_model_variance",
    "MuyGPyS.C24_responses_eq_neighbours_fails"
   ],
   "note": "Every shape except response_count = nn_count, for which the code raises (failure theorem)."
  },
  {
   "property": "C25",
   "status": "proved",
   "theorems": [
    "MuyGPyS.C25_interpolates",
    "MuyGPyS.C25_regress_any"
   ],
   "note": ""
  },
  {
   "property": "C26",
   "status": "proved",
   "theorems": [
    "MuyGPyS.C26_linear",
    "MuyGPyS.C26_neighbour_order"
   ],
   "note": ""
  },
  {
   "property": "C27",
   "status": "proved",
   "theorems": [
    "MuyGPyS.C27_mean_selection",
    "MuyGPyS.C27_variance_selection"
   ],
   "note": ""
  },
  {
   "property": "C28",
   "status": "proved",
   "theorems": [
    "MuyGPyS.C28_variance_bounds",
    "MuyGPyS.C54_regress_always"
   ],
   "note": ""
  },
  {
   "property": "C29",
   "status": "proved",
   "theorems": [
    "MuyGPyS.C29_noise_monotone",
    "MuyGPyS.C29_more_neighbours"
   ],
   "note": ""
  },
  {
   "property": "C30",
   "status": "partial",
   "theorems": [
    "MuyGPyS.C30_scale_once",
    "MuyGPyS.C30_direct_set_is_stale",
    "MuyGPyS.C46_scale_then_variance"
   ],
   "note": "Univariate models; the multi-output class violates it (see C46)."
  },
  {
   "property": "C31",
   "status": "partial",
   "theorems": [
    "MuyGPyS.C31_fast_mean_partial",
    "MuyGPyS.C31_fast_mean_multi_partial",
    "MuyGPyS.C31_fast_eq_regular_partial",
    "MuyGPyS.C31_single_query_shape_fails",
    "MuyGPyS.C31_one_neighbour_wrong",
    "MuyGPyS.C31_one_neighbour_witness"
   ],
   "note": "Needs >= 2 training points, queries and neighbours: squeezing breaks the other cases (failure theorems)."
  },
  {
   "property": "C35",
   "status": "proved",
   "theorems": [
    "MuyGPyS.Loss.C35_mse",
    "MuyGPyS.Loss.C35_pseudo_huber",
    "MuyGPyS.Loss.C35_pseudo_huber_close"
   ],
   "note": ""
  },
  {
   "property": "C36",
   "status": "proved",
   "theorems": [
    "MuyGPyS.Loss.C36_lool_is_likelihood",
    "MuyGPyS.Loss.C36_lool_best_scale"
   ],
   "note": ""
  },
  {
   "property": "C37",
   "status": "proved",
   "theorems": [
    "MuyGPyS.Loss.C37_looph_le_lool",
    "MuyGPyS.Loss.C37_looph_monotone",
    "MuyGPyS.Loss.C37_looph_linear_growth",
    "MuyGPyS.Loss.C37_looph_close",
    "MuyGPyS.Loss.C37_looph_tends"
   ],
   "note": ""
  },
  {
   "property": "C38",
   "status": "partial",
   "theorems": [
    "MuyGPyS.Loss.C38_nonneg",
    "MuyGPyS.Loss.C38_shift_invariant",
    "MuyGPyS.Loss.C38_targets_by_sign",
    "MuyGPyS.Loss.C38_numpy_eq_jax",
    "MuyGPyS.Loss.C38_torch_two_classes_partial",
    "MuyGPyS.Loss.C38_torch_three_classes_differs"
   ],
   "note": "Backend independence is false for torch with more than two classes (failure theorem)."
  },
  {
   "property": "C39",
   "status": "partial",
   "theorems": [
    "MuyGPyS.Loss.C39_value_partial",
    "MuyGPyS.Loss.C39_never_documented_value",
    "MuyGPyS.Loss.C39_singular",
    "MuyGPyS.Loss.C39_witness"
   ],
   "note": "The code adds the (sign, logabsdet) pair by broadcasting: the documented value is never returned (failure theorem); the value it does return is characterised."
  },
  {
   "property": "C06",
   "status": "proved",
   "theorems": [
    "MuyGPyS.C06_mpi_scale"
   ],
   "note": ""
  },
  {
   "property": "C33",
   "status": "partial",
   "theorems": [
    "MuyGPyS.C33_documented_formula",
    "MuyGPyS.C33_multi_output",
    "MuyGPyS.C33_responses_rejected",
    "MuyGPyS.C33_nonneg",
    "MuyGPyS.C33_scaling",
    "MuyGPyS.C33_order",
    "MuyGPyS.C33_iterations_not_documented",
    "MuyGPyS.C33_iterations_zero_targets"
   ],
   "note": "Formula, sign, scaling and order invariance proved for the default single iteration; false for iteration_count >= 2 (Heron iteration converging to the square root) and for several responses (failure theorems)."
  },
  {
   "property": "C34",
   "status": "proved",
   "theorems": [
    "MuyGPyS.C34_downsample",
    "MuyGPyS.C34_zero_counts_accepted",
    "MuyGPyS.C34_negative_counts_rejected"
   ],
   "note": ""
  },
  {
   "property": "C07",
   "status": "partial",
   "theorems": [
    "MuyGPyS.C07_within_tolerance_partial",
    "MuyGPyS.C07_accepts_iff",
    "MuyGPyS.C07_fixed_accepts",
    "MuyGPyS.C07_bounds_accepted_iff",
    "MuyGPyS.C07_rejections",
    "MuyGPyS.C07_documented_fails",
    "MuyGPyS.C07_set_bounds_fails",
    "MuyGPyS.C07_set_bounds_history",
    "MuyGPyS.C07_fix_history",
    "MuyGPyS.C07_refused_bounds_history"
   ],
   "note": "The code only guarantees the bounds up to an absolute tolerance, accepts equal bounds, and _set_bounds does not re-check the value (failure theorems)."
  },
  {
   "property": "C08",
   "status": "proved",
   "theorems": [
    "MuyGPyS.C08_sample_in_bounds",
    "MuyGPyS.C08_sample_succeeds",
    "MuyGPyS.C08_sample_rejected",
    "MuyGPyS.C08_ranks_agree"
   ],
   "note": "Over extended reals without rounding."
  },
  {
   "property": "C09",
   "status": "proved",
   "theorems": [
    "MuyGPyS.C09_fixed_untouched"
   ],
   "note": ""
  },
  {
   "property": "C12",
   "status": "partial",
   "theorems": [
    "MuyGPyS.C12_opt_lists",
    "MuyGPyS.C12_null_noise_fails"
   ],
   "note": "All models with homoscedastic or heteroscedastic noise; NullNoise models raise (failure theorem)."
  },
  {
   "property": "C13",
   "status": "partial",
   "theorems": [
    "MuyGPyS.C13_model_from_answer",
    "MuyGPyS.C13_in_bounds",
    "MuyGPyS.C13_idempotent",
    "MuyGPyS.C13_nan_answer_stored"
   ],
   "note": "Real answers; a NaN answer is stored as is (failure theorem)."
  },
  {
   "property": "C14",
   "status": "proved",
   "theorems": [
    "MuyGPyS.C14_crosswise",
    "MuyGPyS.C14_out_of_range",
    "MuyGPyS.C14_mismatch_broadcast"
   ],
   "note": "Mismatched but broadcastable index tensors are not rejected (C14_mismatch_broadcast)."
  },
  {
   "property": "C15",
   "status": "proved",
   "theorems": [
    "MuyGPyS.C15_pairwise",
    "MuyGPyS.C15_out_of_range",
    "MuyGPyS.C15_antisymmetric",
    "MuyGPyS.C15_distances_symmetric",
    "MuyGPyS.C15_matches_crosswise"
   ],
   "note": "NumPy backend; torch/jax differ on 1-D data."
  },
  {
   "property": "C16",
   "status": "proved",
   "theorems": [
    "MuyGPyS.C16_predict_tensors",
    "MuyGPyS.C16_train_tensors",
    "MuyGPyS.C16_predict_distances"
   ],
   "note": ""
  },
  {
   "property": "C17",
   "status": "proved",
   "theorems": [
    "MuyGPyS.C17_metrics",
    "MuyGPyS.C17_any_rank"
   ],
   "note": ""
  },
  {
   "property": "C23",
   "status": "partial",
   "theorems": [
    "MuyGPyS.C23_nonneg_partial",
    "MuyGPyS.C23_heteroscedastic",
    "MuyGPyS.C23_negative_bounds_refused",
    "MuyGPyS.C23_negative_fixed_accepted",
    "MuyGPyS.C23_negative_unfixed_accepted",
    "MuyGPyS.C23_null_noise_not_queryable"
   ],
   "note": "Negative fixed and slightly negative bounded noise is accepted, NullNoise cannot be queried (failure theorems)."
  },
  {
   "property": "C10",
   "status": "partial",
   "theorems": [
    "MuyGPyS.C10_only_own_keywords",
    "MuyGPyS.C10_override_partial",
    "MuyGPyS.C10_closed_form_ignores_keyword",
    "MuyGPyS.C10_closed_form_witness",
    "MuyGPyS.C10_stale_after_set"
   ],
   "note": "False for a smoothness keyword given to a closed-form Matern (fixed smoothness) and after set_params (failure theorems)."
  },
  {
   "property": "C11",
   "status": "partial",
   "theorems": [
    "MuyGPyS.C11_actual",
    "MuyGPyS.C11_own_dimension_partial",
    "MuyGPyS.C11_swapped_fails",
    "MuyGPyS.C11_swapped_witness",
    "MuyGPyS.C11_extra_rejected"
   ],
   "note": "The code applies overridden length scales first, in keyword order: right only when the overridden ones are a prefix; failure theorems otherwise."
  },
  {
   "property": "C18",
   "status": "proved",
   "theorems": [
    "MuyGPyS.C18_deformations_agree",
    "MuyGPyS.C18_count_mismatch"
   ],
   "note": ""
  },
  {
   "property": "C19",
   "status": "proved",
   "theorems": [
    "MuyGPyS.C19_strictly_decreasing",
    "MuyGPyS.C19_correlation",
    "MuyGPyS.C19_kernel_call"
   ],
   "note": ""
  },
  {
   "property": "C20",
   "status": "proved",
   "theorems": [
    "MuyGPyS.C20_rbf_is_smooth_matern",
    "MuyGPyS.C20_selection",
    "MuyGPyS.C20_unfixed_keyword_used"
   ],
   "note": ""
  },
  {
   "property": "C21",
   "status": "proved",
   "theorems": [
    "MuyGPyS.C21_symmetric_unit_diagonal",
    "MuyGPyS.C21_definite",
    "MuyGPyS.C21_solves_succeed"
   ],
   "note": ""
  },
  {
   "property": "C32",
   "status": "partial",
   "theorems": [
    "MuyGPyS.C32_update",
    "MuyGPyS.C32_nearest_first",
    "MuyGPyS.C32_double_update_repeats",
    "MuyGPyS.C32_fast_predict_tensors",
    "MuyGPyS.C32_workflow_actual",
    "MuyGPyS.C32_workflow_fails"
   ],
   "note": "The update itself and make_fast_predict_tensors keep their promise; fast_posterior_mean_any applies the update twice, so coefficients and cross-covariances use different neighbourhoods (failure theorem with witness)."
  },
  {
   "property": "C41",
   "status": "partial",
   "theorems": [
    "MuyGPyS.C41_plain",
    "MuyGPyS.C41_rejected",
    "MuyGPyS.C41_batch_partial",
    "MuyGPyS.C41_batch_always",
    "MuyGPyS.C41_duplicates_fail",
    "MuyGPyS.C41_wrong_rank"
   ],
   "note": "Self-exclusion needs the batch point to be separated from the other training points; with repeated points the code can return the point itself (failure theorem). The exact index is assumed to satisfy the nearest-neighbour contract."
  },
  {
   "property": "C54",
   "status": "partial",
   "theorems": [
    "MuyGPyS.C54_regress",
    "MuyGPyS.C54_regress_multi_partial",
    "MuyGPyS.C54_regress_any",
    "MuyGPyS.C54_multi_output_partial",
    "MuyGPyS.C54_regress_multi_variance_partial",
    "MuyGPyS.C54_components",
    "MuyGPyS.C44_multi_output_partial",
    "MuyGPyS.C54_regress_always",
    "MuyGPyS.C54_indices_always"
   ],
   "note": "Univariate and multi-output regression; response_count = nn_count excluded (see C24)."
  },
  {
   "property": "C40",
   "status": "partial",
   "theorems": [
    "MuyGPyS.C40_raw",
    "MuyGPyS.C40_variance_partial",
    "MuyGPyS.C40_unscaled_lool_fails",
    "MuyGPyS.C40_analytic_noise_fails",
    "MuyGPyS.C40_response_matrix_fails",
    "MuyGPyS.C40_response_column_ranking_fails",
    "MuyGPyS.C40_column_objective_fails",
    "MuyGPyS.C40_adapter"
   ],
   "note": "Full for prediction-only losses; for variance losses it holds when the scale estimate does not depend on a trial noise, and is false (witness) when noise is optimised together with an analytic scale, for lool_fn_unscaled, which always raises, and for responses given as the documented (N, 1) matrix, where every residual is weighed with every variance (witnesses)."
  },
  {
   "property": "C46",
   "status": "partial",
   "theorems": [
    "MuyGPyS.C46_mean_partial",
    "MuyGPyS.C46_independent_partial",
    "MuyGPyS.C46_one_neighbour_fails",
    "MuyGPyS.C46_response_count",
    "MuyGPyS.C46_variance_actual",
    "MuyGPyS.C46_variance_partial",
    "MuyGPyS.C46_variance_fails",
    "MuyGPyS.C46_scale",
    "MuyGPyS.C46_scale_then_variance",
    "MuyGPyS.C46_scale_witness",
    "MuyGPyS.C46_metric_mismatch_fails"
   ],
   "note": "Means for any number of outputs except one neighbour (raises); the variance carries one scale factor too many, metrics of models other than the first are ignored (failure theorems)."
  },
  {
   "property": "C47",
   "status": "partial",
   "theorems": [
    "MuyGPyS.C47_coefficients_actual",
    "MuyGPyS.C47_mean_actual",
    "MuyGPyS.C47_fails",
    "MuyGPyS.C47_zero_targets_partial",
    "MuyGPyS.C47_witness",
    "MuyGPyS.C47_succeeds",
    "MuyGPyS.C47_contraction"
   ],
   "note": "The code drops the values it computes and returns zeros: false for every model and data with a nonzero coefficient (failure theorem), true only for zero targets."
  },
  {
   "property": "C42",
   "status": "partial",
   "theorems": [
    "MuyGPyS.C42_batch",
    "MuyGPyS.C42_neighbours_partial",
    "MuyGPyS.C42_rejected"
   ],
   "note": "The batch and its size in full; self-exclusion of the neighbours needs separated points (C41)."
  },
  {
   "property": "C43",
   "status": "partial",
   "theorems": [
    "MuyGPyS.C43_filtered_partial",
    "MuyGPyS.C43_fractional_labels_fail",
    "MuyGPyS.C43_balanced_actual",
    "MuyGPyS.C43_balanced_partial",
    "MuyGPyS.C43_short_class_fails",
    "MuyGPyS.C43_fewer_than_classes_empty",
    "MuyGPyS.C43_choice",
    "MuyGPyS.C43_witness"
   ],
   "note": "Filtering for integer labels (labels are truncated to integers: fractional labels fail); balance when every class has enough non-constant points (failure theorems otherwise)."
  },
  {
   "property": "C44",
   "status": "partial",
   "theorems": [
    "MuyGPyS.C44_constant",
    "MuyGPyS.C44_actual",
    "MuyGPyS.C44_two_class_partial",
    "MuyGPyS.C44_multi_output_partial",
    "MuyGPyS.C44_three_classes_fails",
    "MuyGPyS.C44_uq_partial",
    "MuyGPyS.C44_mask_counts",
    "MuyGPyS.C44_uq_multi_output_fails",
    "MuyGPyS.C44_always_partial"
   ],
   "note": "Holds for neighbourhoods the code treats as constant or mixed correctly: it compares only the first label column, so with three or more classes a mixed neighbourhood can be treated as constant (failure theorem); the uncertainty workflow raises for multi-output models (failure theorem)."
  },
  {
   "property": "C45",
   "status": "partial",
   "theorems": [
    "MuyGPyS.C45_masks_actual",
    "MuyGPyS.C45_masks_partial",
    "MuyGPyS.C45_masks_fails",
    "MuyGPyS.C45_counts",
    "MuyGPyS.C45_all_ambiguous",
    "MuyGPyS.C45_calibration",
    "MuyGPyS.C45_cutoffs",
    "MuyGPyS.C45_cutoffs_degenerate",
    "MuyGPyS.C45_calibration_threshold_fails"
   ],
   "note": "Counts, masks and calibration as coded; the masks use cutoff*variance where calibration uses cutoff*standard deviation and the calibration threshold ignores mid_value (failure theorems)."
  },
  {
   "property": "C48",
   "status": "partial",
   "theorems": [
    "MuyGPyS.Shear.C48_symmetric",
    "MuyGPyS.Shear.C48_pairwise_partial",
    "MuyGPyS.Shear.C48_crosswise_partial",
    "MuyGPyS.Shear.C48_two_observables_partial",
    "MuyGPyS.Shear.C48_kout",
    "MuyGPyS.Shear.C48_trial",
    "MuyGPyS.Shear.C48_psd",
    "MuyGPyS.Shear.C48_predict_partial",
    "MuyGPyS.Shear.C48_predict_two_partial",
    "MuyGPyS.Shear.C48_variance_bounds",
    "MuyGPyS.Shear.C48_square_crosswise_fails",
    "MuyGPyS.Shear.C48_square_crosswise_silent",
    "MuyGPyS.Shear.C48_single_query_fails",
    "MuyGPyS.Shear.C48_trial_variance_fails"
   ],
   "note": "Blocks are the derivative covariances, symmetric, positive semidefinite, reduced kernels are sub-blocks, predictions are kriging. Telling crosswise from pairwise fails when the numbers of queries and neighbours coincide (silently wrong for 3), a single query loses its batch axis, and the prior covariance ignores a trial length scale (failure theorems)."
  },
  {
   "property": "C49",
   "status": "partial",
   "theorems": [
    "MuyGPyS.Conf.C49_options_restored",
    "MuyGPyS.Conf.C49_override_restored",
    "MuyGPyS.Conf.C49_scope_visible",
    "MuyGPyS.Conf.C49_update_survives_scope",
    "MuyGPyS.Conf.C49_scope_rejects",
    "MuyGPyS.Conf.C49_unknown_rejected",
    "MuyGPyS.Conf.C49_import",
    "MuyGPyS.Conf.C49_import_consistent",
    "MuyGPyS.Conf.C49_enabled_variables_ignored",
    "MuyGPyS.Conf.C49_derived_state_partial",
    "MuyGPyS.Conf.C49_update_consistent",
    "MuyGPyS.Conf.C49_outermost_scope_loses_state",
    "MuyGPyS.Conf.C49_backend_scope_breaks_library",
    "MuyGPyS.Conf.C49_ftype_scope_loses_type",
    "MuyGPyS.Conf.C49_update_unvalidated_fails",
    "MuyGPyS.Conf.C49_update_in_scope_inconsistent",
    "MuyGPyS.Conf.C49_threads_share_state",
    "MuyGPyS.Conf.C49_define",
    "MuyGPyS.Conf.C49_full_fails",
    "MuyGPyS.Conf.C49_consistent_selects",
    "MuyGPyS.Conf.C49_flags_read"
   ],
   "note": "Option values are restored by every well-nested program, exceptions and other threads included. The derived config.state is not: leaving an outermost scope sets it to None, updates are not validated, and it is shared by threads (refuted by theorems). Model is the Config class used when JAX is not installed; the absl-backed command-line flags are C103."
  },
  {
   "property": "C50",
   "status": "partial",
   "theorems": [
    "MuyGPyS.C50_values_partial",
    "MuyGPyS.C50_reflexive_partial",
    "MuyGPyS.C50_symmetric_partial",
    "MuyGPyS.C50_transitive_partial",
    "MuyGPyS.C50_kernel_ignored_fails",
    "MuyGPyS.C50_asymmetric_fails",
    "MuyGPyS.C50_key_error",
    "MuyGPyS.C50_nan_fails",
    "MuyGPyS.C50_array_noise_fails",
    "MuyGPyS.C50_bounds_ignored"
   ],
   "note": "Equivalence laws and value discrimination hold for models whose hyperparameter names agree and whose values are neither NaN nor arrays; the code ignores the kernel class, can be asymmetric, raises KeyError, and NaN breaks reflexivity (failure theorems)."
  },
  {
   "property": "C51",
   "status": "partial",
   "theorems": [
    "MuyGPyS.Share.C51_explicit_partial",
    "MuyGPyS.Share.C51_explicit_changes_nothing_else",
    "MuyGPyS.Share.C51_optimised",
    "MuyGPyS.Share.C51_default_length_scale_fails",
    "MuyGPyS.Share.C51_default_noise_fails",
    "MuyGPyS.Share.C51_default_scale_fails"
   ],
   "note": "Holds for models whose hyperparameters were all given explicitly and for optimised models; models built with default arguments share the default objects (failure theorems)."
  },
  {
   "property": "C52",
   "status": "partial",
   "theorems": [
    "MuyGPyS.C52_count_mismatch",
    "MuyGPyS.C52_listed",
    "MuyGPyS.C52_value",
    "MuyGPyS.C52_singular",
    "MuyGPyS.C52_interpolates_partial",
    "MuyGPyS.C52_residual",
    "MuyGPyS.C52_interpolation_fails",
    "MuyGPyS.C52_linear",
    "MuyGPyS.C52_trial_partial",
    "MuyGPyS.C52_trial_smoothness",
    "MuyGPyS.C52_trial_fails",
    "MuyGPyS.C52_kernel",
    "MuyGPyS.C52_features_needed",
    "MuyGPyS.C52_always"
   ],
   "note": "The value is the kriging mean from the knots: linear, and exact at the knots without noise. With the default noise 1e-5 it reproduces the knot values only if they are all zero; trial values given for other than the first knots are permuted (failure theorems)."
  },
  {
   "property": "C55",
   "status": "partial",
   "theorems": [
    "MuyGPyS.Opt.C55_counts_partial",
    "MuyGPyS.Opt.C55_counts_fails",
    "MuyGPyS.Opt.C55_last_epoch_best",
    "MuyGPyS.Opt.C55_keep_state",
    "MuyGPyS.Opt.C55_probe_previous",
    "MuyGPyS.Opt.C55_anisotropic_fails",
    "MuyGPyS.Opt.C55_keywords_needed",
    "MuyGPyS.Opt.C55_forgets_fails"
   ],
   "note": "Holds with keep_state (best of all epochs) and probe_previous (every earlier answer re-evaluated); with neither, the answer is only the best of the last epoch and can be worse than the initial point; anisotropic models fail for more than one epoch; init_points = 0 draws unreported points (failure theorems). bayes_opt is modelled by its documented bookkeeping."
  },
  {
   "property": "C56",
   "status": "proved",
   "theorems": [
    "MuyGPyS.Opt.C56_bayes_never_worse"
   ],
   "note": "bayes_opt is modelled by its documented bookkeeping; random points and suggestions are arbitrary; real-valued objectives."
  },
  {
   "property": "C53",
   "status": "partial",
   "theorems": [
    "MuyGPyS.C53_difference_tensors",
    "MuyGPyS.C53_vector_features_fails",
    "MuyGPyS.C53_heteroscedastic",
    "MuyGPyS.C53_jax_posterior",
    "MuyGPyS.C53_jax_multi_variance",
    "MuyGPyS.C53_jax_multi_mean_fails",
    "MuyGPyS.C53_fast_coefficients",
    "MuyGPyS.C53_fast_mean",
    "MuyGPyS.C53_jax_scale",
    "MuyGPyS.C53_jax_multi_scale",
    "MuyGPyS.C53_vector_losses",
    "MuyGPyS.C53_torch_matrix_loss_fails",
    "MuyGPyS.C53_numpy_mse_link",
    "MuyGPyS.C53_lool_matrix_fails",
    "MuyGPyS.C53_lool_square_fails",
    "MuyGPyS.C53_matern_gen_partial",
    "MuyGPyS.C53_matern_gen_documented",
    "MuyGPyS.C53_matern_gen_zero_fails",
    "MuyGPyS.C53_shear",
    "MuyGPyS.C53_shear_object",
    "MuyGPyS.C53_torch_shear_mean",
    "MuyGPyS.C53_jax_shear_fails"
   ],
   "note": "The functions whose text differs between backends agree on feature tables, single-output posteriors, heteroscedastic noise, single-output scale, fast coefficients and losses of vectors. They differ (failure theorems) on one-dimensional data, multi-output means and scales in jax, torch losses of matrices (a vector, not a number), lool of matrices of variances, the general Matern kernel at zero distance, and the shear model in jax. Functions with identical text share the NumPy model."
  },
  {
   "property": "C57",
   "status": "partial",
   "theorems": [
    "MuyGPyS.Deep.C57_returned_lookup",
    "MuyGPyS.Deep.C57_evaluation_mode_partial",
    "MuyGPyS.Deep.C57_training_mode_fails",
    "MuyGPyS.Deep.C57_refresh_unused_fails",
    "MuyGPyS.Deep.C57_frequency_irrelevant_fails",
    "MuyGPyS.Deep.C57_self_neighbour_fails",
    "MuyGPyS.Deep.C57_loss_names",
    "MuyGPyS.Deep.C57_lool_value",
    "MuyGPyS.Deep.C57_lool_responses_fails"
   ],
   "note": "The returned lookup indexes the embedding of the returned parameters, in evaluation mode when u divides T-1. Otherwise the model comes back in training mode; the refreshed neighbours are stored on the module and never used in training, contain the point itself, the documented loss l1 is refused and the default loss raises for several responses (failure theorems)."
  },
  {
   "property": "C58",
   "status": "partial",
   "theorems": [
    "MuyGPyS.Deep.C58_only_length_scale",
    "MuyGPyS.Deep.C58_declarations_unused_fails",
    "MuyGPyS.Deep.C58_fixed_changes_fails"
   ],
   "note": "Nothing but the length scale (and the embedding) changes; the fixed flag and the bounds of the length scale are ignored (failure theorems)."
  },
  {
   "property": "C59",
   "status": "proved",
   "theorems": [
    "MuyGPyS.Deep.C59_forward",
    "MuyGPyS.Deep.C59_predict",
    "MuyGPyS.Deep.C59_predict_always"
   ],
   "note": "One response per point; univariate layer; invertible covariances; arbitrary embedding, deterministic in evaluation mode; the nearest-neighbour construction is assumed to be exact."
  },
  {
   "property": "C60",
   "status": "partial",
   "theorems": [
    "MuyGPyS.C60_scipy_partial",
    "MuyGPyS.C60_bayes_never_worse_partial",
    "MuyGPyS.C60_fixed_first_fails",
    "MuyGPyS.C60_eleven_fails"
   ],
   "note": "Holds when no anisotropic length scale is fixed before a free one, for at most ten of them where bayes_opt sorts names, and unless, under a variance loss, an analytic scale is estimated together with a free noise or a scale is estimated from random samples (DownSampleScale, C108). Otherwise an optimiser that finds the exact optimum can return a model that scores strictly worse than the initial one (failure theorems; see also C40_analytic_noise_fails). The optimisers are arbitrary; numpy backend."
  },
  {
   "property": "C61",
   "status": "partial",
   "theorems": [
    "MuyGPyS.C61_fixed",
    "MuyGPyS.C61_null_noise_fails",
    "MuyGPyS.C61_make_regressor",
    "MuyGPyS.C61_never_worse_partial",
    "MuyGPyS.C61_do_regress",
    "MuyGPyS.C61_make_classifier",
    "MuyGPyS.C61_do_classify",
    "MuyGPyS.C61_training_succeeds",
    "MuyGPyS.C61_zero_responses_fails",
    "MuyGPyS.C61_do_regress_always",
    "MuyGPyS.C61_do_classify_always"
   ],
   "note": "Univariate models. Training data, scale and predictions as promised; with a closed-form kernel and sufficient noise nothing fails except an analytic scale of all-zero responses (ValueError) and NullNoise models (AttributeError). Never-worse only under the conditions of C60."
  },
  {
   "property": "C62",
   "status": "partial",
   "theorems": [
    "MuyGPyS.C62_matern",
    "MuyGPyS.C62_correlation",
    "MuyGPyS.C62_special_cases",
    "MuyGPyS.C62_zero_distance",
    "MuyGPyS.C62_diagonal_vanishes",
    "MuyGPyS.C62_definite_partial",
    "MuyGPyS.C62_negative_variance"
   ],
   "note": "The documented correlation at every positive distance, for all smoothness values. At distance zero the general implementation returns the value at machine epsilon, which is below 1 (and tends to 0 with the smoothness): covariances are positive definite only with noise above that deficit, below it variances can be negative (failure theorem). scipy gamma/kv are modelled as the exact functions."
  },
  {
   "property": "C63",
   "status": "proved",
   "theorems": [
    "MuyGPyS.Mem.C63_unchanged",
    "MuyGPyS.Mem.C63_fresh",
    "MuyGPyS.Mem.C63_session",
    "MuyGPyS.Mem.C63_null_fails",
    "MuyGPyS.Mem.C63_session_null_fails",
    "MuyGPyS.Mem.C63_implementation_overwrites"
   ],
   "note": "NumPy backend, MPI off; arrays are whole contiguous buffers, a temporary that is never written to is not a buffer of its own. NullNoise.perturb is the documented exception (shown to alias). The general Matern implementation itself overwrites its argument (C63_implementation_overwrites): the kernel is safe because the deformation allocates."
  },
  {
   "property": "C64",
   "status": "partial",
   "theorems": [
    "MuyGPyS.C64_count",
    "MuyGPyS.C64_fixed",
    "MuyGPyS.C64_arguments",
    "MuyGPyS.C64_tuple_fails",
    "MuyGPyS.C64_alone",
    "MuyGPyS.C64_alone_converse",
    "MuyGPyS.C64_scale",
    "MuyGPyS.C64_training_succeeds",
    "MuyGPyS.C64_do_regress",
    "MuyGPyS.C64_captured",
    "MuyGPyS.C64_optimisers_capture",
    "MuyGPyS.C64_variance_partial",
    "MuyGPyS.C64_variance_fails",
    "MuyGPyS.C64_make_classifier",
    "MuyGPyS.C64_classifier_converse",
    "MuyGPyS.C64_do_classify"
   ],
   "note": "Models that share deformation kind and metric (otherwise C46_metric_mismatch_fails), no NullNoise, more than one neighbour (C46_one_neighbour_fails). Training, scales, means and surrogate predictions are those of the models alone. Variances are right only for models built with scale 1: otherwise the old scale is multiplied in (failure theorem). do_classify refuses a tuple (failure theorem)."
  },
  {
   "property": "C65",
   "status": "partial",
   "theorems": [
    "MuyGPyS.C65_model",
    "MuyGPyS.C65_actual",
    "MuyGPyS.C65_do_fast",
    "MuyGPyS.C65_linear",
    "MuyGPyS.C65_right_iff",
    "MuyGPyS.C65_interpolation_fails",
    "MuyGPyS.C65_multi_zero",
    "MuyGPyS.C65_multi_fails"
   ],
   "note": "Training, coefficients and linearity as promised. The prediction pairs each coefficient with the wrong neighbour (the index array is shifted twice): it is the documented kriging mean for all responses only at points equally correlated with all the neighbours, and noise-free interpolation fails for every data set; with one model per response everything returned is zero (failure theorems). At least two test points and two neighbours; different training points."
  },
  {
   "property": "C66",
   "status": "partial",
   "theorems": [
    "MuyGPyS.C66_similar",
    "MuyGPyS.C66_affine",
    "MuyGPyS.C66_ties_fails",
    "MuyGPyS.C66_single_unit_fails"
   ],
   "note": "For a trained univariate model, one response, noise that does not depend on the test point. Any reordering of training and test points together with any similarity (one length scale) or with shifts, column exchange and a common unit (several length scales), for different Euclidean indices on both sides, as long as no test point is equally far from two training points. With ties the order of the training points changes the prediction, and so does the unit of a single feature, because neighbours are chosen by unscaled distances (failure theorems)."
  },
  {
   "property": "C67",
   "status": "partial",
   "theorems": [
    "MuyGPyS.C67_actual",
    "MuyGPyS.C67_result",
    "MuyGPyS.C67_unanimous",
    "MuyGPyS.C67_nested",
    "MuyGPyS.C67_undecided",
    "MuyGPyS.C67_succeeds",
    "MuyGPyS.C67_one_hot_fails",
    "MuyGPyS.C45_masks_fails",
    "MuyGPyS.C45_calibration_threshold_fails"
   ],
   "note": "Univariate model, two label columns where the first decides, neighbour count other than 2 (C44), exact index. Undecided points are flagged for symmetric labels (a, -a); with one-hot labels a point with equal scores need not be flagged (failure theorem). The interval is prediction +- cutoff * variance where the calibration uses the standard deviation and threshold 0 (C45 failure theorems). Success for the built-in objectives and a calibration batch count of at least the training set size."
  },
  {
   "property": "C68",
   "status": "partial",
   "theorems": [
    "MuyGPyS.Deep.C68_forward_partial",
    "MuyGPyS.Deep.C68_predict_partial",
    "MuyGPyS.Deep.C68_alone_partial",
    "MuyGPyS.Deep.C68_returned_lookup",
    "MuyGPyS.Deep.C68_lool_value",
    "MuyGPyS.Deep.C68_untrained_fails"
   ],
   "note": "Predictions are those of the models alone in the trained embedding (models sharing deformation kind and metric, more than one neighbour). The layer registers no parameter with torch: no length scale or noise is ever trained, and refreshed neighbours are not used (failure theorem); variances carry the scale twice (C46_variance_fails). Arbitrary embedding, deterministic in evaluation mode; exact index."
  },
  {
   "property": "C69",
   "status": "proved",
   "theorems": [
    "MuyGPyS.C69_prior",
    "MuyGPyS.C69_prior_always",
    "MuyGPyS.C69_prior_matern"
   ],
   "note": "One response, univariate model, exact index. C69_prior: whenever regress_any returns (it raises exactly for singular neighbourhood covariances); C69_prior_always and C69_prior_matern: conditions under which it always returns."
  },
  {
   "property": "C70",
   "status": "partial",
   "theorems": [
    "MuyGPyS.C70_continuous_partial",
    "MuyGPyS.C70_switch_fails",
    "MuyGPyS.C70_matern_jump"
   ],
   "note": "Continuous at every point whose nearest training points are unambiguous, for noise that does not depend on the test point; with the general Matern implementation, except at training points. Where the neighbours change predictions jump, and so do those of the general Matern kernel at training points (failure theorems)."
  },
  {
   "property": "C71",
   "status": "proved",
   "theorems": [
    "MuyGPyS.C71_posterior",
    "MuyGPyS.C71_optimal",
    "MuyGPyS.C71_heteroscedastic",
    "MuyGPyS.C71_matern"
   ],
   "note": "One response (several: C79), univariate model, exact index; homoscedastic, heteroscedastic or no noise, sufficient noise or different training points. For the general Matern kernel: noise above the deficit of C62, and the posterior is that of observations with the noise minus the deficit, at test points which are not training points. The statistical model exists for every kernel and data set (observed_exists)."
  },
  {
   "property": "C72",
   "status": "partial",
   "theorems": [
    "MuyGPyS.C72_unbiased_partial",
    "MuyGPyS.C72_matern_partial",
    "MuyGPyS.C72_iterations_fail",
    "MuyGPyS.C72_matern_iterations_fail"
   ],
   "note": "True of AnalyticScale with one iteration (the default); false for every iteration_count >= 2: the mean is at most (s+1)/2 (failure theorem). One response, the hyperparameters other than the scale being the true ones, homoscedastic or no noise, exact index. For the closed-form kernels (C72_unbiased_partial) and for the general Matern implementation when the noise covers its deficit at coincident points (C72_matern_partial)."
  },
  {
   "property": "C73",
   "status": "partial",
   "theorems": [
    "MuyGPyS.C73_means_partial",
    "MuyGPyS.C73_objective_partial",
    "MuyGPyS.C73_matern_partial",
    "MuyGPyS.C73_matern_objective_partial",
    "MuyGPyS.C73_lool_partial",
    "MuyGPyS.C73_lool_fails"
   ],
   "note": "Closed-form kernels, and (C73_matern_*, also with a free smoothness) the general Matern implementation with noise above its deficit at distance zero. Mean squared error and pseudo-Huber loss: for all models with separated training points (otherwise a point can be its own neighbour: C41). Leave-one-out likelihood: true for noise-free responses and fixed scales; with noise it is false for every model, because the loss compares the noisy response with the variance of the noise-free value (failure theorem)."
  },
  {
   "property": "C74",
   "status": "partial",
   "theorems": [
    "MuyGPyS.Sampler.C74_split_partial",
    "MuyGPyS.Sampler.C74_features_partial",
    "MuyGPyS.Sampler.C74_ratio_too_large_fails",
    "MuyGPyS.Sampler.C74_ratio_too_small_fails",
    "MuyGPyS.Sampler.C74_default_fails",
    "MuyGPyS.Sampler.C74_seed_fails"
   ],
   "note": "The split is right for every shuffle and every draw when 1 <= int(n r) <= n. Below it raises ZeroDivisionError, above it raises ValueError, also with the default arguments of UnivariateSampler2D; the seed does not determine the split, because the points are picked by the global np.random.choice (failure theorems)."
  },
  {
   "property": "C75",
   "status": "partial",
   "theorems": [
    "MuyGPyS.Sampler.C75_law_partial",
    "MuyGPyS.Sampler.C75_closed_partial",
    "MuyGPyS.Sampler.C75_default_partial",
    "MuyGPyS.Sampler.C75_sample_full",
    "MuyGPyS.Sampler.C75_measurement_fails"
   ],
   "note": "True of the kernel and the noise parameter, also for the default general Matern kernel with the default noise; the measurement noise is used as a standard deviation (failure theorem), so that the training responses have its square as variance. np.linalg.cholesky and np.random.normal are modelled by their contracts, arithmetic is exact."
  },
  {
   "property": "C76",
   "status": "partial",
   "theorems": [
    "MuyGPyS.Sampler.C76_posterior_partial",
    "MuyGPyS.Sampler.C76_samplers_partial",
    "MuyGPyS.Sampler.C76_matern_partial",
    "MuyGPyS.Sampler.C76_default_partial",
    "MuyGPyS.Sampler.C76_measurement_fails",
    "MuyGPyS.regress_vec_table"
   ],
   "note": "True of a model with the total noise variance (noise + measurement_noise squared), scale 1 and a closed-form kernel, or the general Matern kernel of the default arguments, for vectors and tables of features. With any other noise level, and so with measurement_noise itself as in the tutorials, the reported variances are wrong (failure theorem)."
  },
  {
   "property": "C77",
   "status": "partial",
   "theorems": [
    "MuyGPyS.Mpi.C77_single_rank_partial",
    "MuyGPyS.Mpi.C77_model_tensors_fail",
    "MuyGPyS.Mpi.C77_next_call_fails"
   ],
   "note": "True of one rank only. With two or more ranks and at least as many batch elements as ranks it is false under every schedule: the metric used inside the decorated methods scatters its own results, so that the other ranks take unmeasured differences and pieces of distances in place of targets, two messages per rank stay unreceived and are taken by the next scatter, and rank 0 never returns if sends do not buffer."
  },
  {
   "property": "C78",
   "status": "proved",
   "theorems": [
    "MuyGPyS.Mpi.C78_sequence",
    "MuyGPyS.Mpi.C78_chunk_like_serial"
   ],
   "note": "Scatters where each rank posts one receive per tensor; MPI channels are reliable and FIFO."
  },
  {
   "property": "C79",
   "status": "partial",
   "theorems": [
    "MuyGPyS.C79_columns_partial",
    "MuyGPyS.C79_posterior_partial",
    "MuyGPyS.C79_as_many_responses_as_neighbours_fails"
   ],
   "note": "True for every number of responses except the number of neighbours, for which regress_any raises ValueError although each response alone is predicted (failure theorem)."
  },
  {
   "property": "C80",
   "status": "partial",
   "theorems": [
    "MuyGPyS.C80_change_partial",
    "MuyGPyS.C80_history_partial",
    "MuyGPyS.C80_set_params",
    "MuyGPyS.C80_multi_partial",
    "MuyGPyS.C80_set_params_fails",
    "MuyGPyS.C80_multi_fails"
   ],
   "note": "True for every change of a univariate model that names one hyperparameter at a time, and for set_params with known names. False for set_params with a known and an unknown name and for optimize_scale of a multivariate model: the changes before the failure stay (failure theorems; C80_multi_partial says exactly which)."
  },
  {
   "property": "C81",
   "status": "partial",
   "theorems": [
    "MuyGPyS.C81_current_partial",
    "MuyGPyS.C81_stored",
    "MuyGPyS.C81_after_optimize_scale",
    "MuyGPyS.C81_smoothness_fails",
    "MuyGPyS.C81_scale_fails"
   ],
   "note": "True for RBF and for changes that keep the Matern implementation. False for the smoothness set by set_params: the kernel goes on with the old closed form until the next optimize_scale, which estimates the scale with the old kernel and then switches (failure theorems)."
  },
  {
   "property": "C82",
   "status": "partial",
   "theorems": [
    "MuyGPyS.C82_local_partial",
    "MuyGPyS.C82_objective_partial",
    "MuyGPyS.C82_positive_fails",
    "MuyGPyS.C82_workflow_fails",
    "MuyGPyS.C82_optimize_fails"
   ],
   "note": "True wherever the interpolated length scale is positive, and for trial values of the first knots in order with mean-only losses. False in general: positive knots give negative length scales, covariances above 1 and negative variances; regress_from_indices (KeyError) and optimize without batch_features (AttributeError) do not work with such models (failure theorems). Trials of other knots are permuted (C52)."
  },
  {
   "property": "C83",
   "status": "partial",
   "theorems": [
    "MuyGPyS.C83_objective",
    "MuyGPyS.C83_bayes",
    "MuyGPyS.C83_bayes_fresh",
    "MuyGPyS.C83_scipy",
    "MuyGPyS.C83_do_regress_partial",
    "MuyGPyS.C83_do_regress_bayes_partial",
    "MuyGPyS.C83_iterations_fail"
   ],
   "note": "True for regression losses, an estimated scale (AnalyticScale with one iteration, DownSampleScale), or a fixed scale stated in the same unit. False for AnalyticScale(iteration_count > 1), whose estimate is not multiplied by c squared (failure theorem)."
  },
  {
   "property": "C84",
   "status": "partial",
   "theorems": [
    "MuyGPyS.C84_nested",
    "MuyGPyS.C84_more_information_partial",
    "MuyGPyS.C84_more_points_fails",
    "MuyGPyS.C84_ties_fails"
   ],
   "note": "True whenever the old neighbours of each test point are among its new ones (C84_nested: any exact index, ties or not); that is so for more neighbours, for less noise, and for r additional training points with r more neighbours, if no test point is equidistant from two training points or all training points are neighbours. Univariate model, closed-form kernel, homoscedastic or no noise. With ties false even for more neighbours over the same points (C84_ties_fails). False for additional training points with the same neighbour count: the new point can displace a more informative one (failure theorem)."
  },
  {
   "property": "C85",
   "status": "proved",
   "theorems": [
    "MuyGPyS.C85_influence",
    "MuyGPyS.C85_one_observation"
   ],
   "note": "Univariate model (several responses: C79), closed-form kernel, homoscedastic noise, exact index."
  },
  {
   "property": "C86",
   "status": "partial",
   "theorems": [
    "MuyGPyS.C86_renamed_partial",
    "MuyGPyS.C86_names_matter_fails"
   ],
   "note": "True for two classes and for permutations that keep the first class, when the number of classes differs from the number of neighbours (C24). False in general: whether a neighbourhood counts as constant depends on the first column only, so the name of a class can decide which class is predicted (failure theorem)."
  },
  {
   "property": "C87",
   "status": "partial",
   "theorems": [
    "MuyGPyS.Shear.C87_predict_partial",
    "MuyGPyS.Shear.C87_predict_two_partial",
    "MuyGPyS.Shear.C87_objective_partial",
    "MuyGPyS.Shear.C87_objective_two_partial",
    "MuyGPyS.Shear.C87_scale_partial",
    "MuyGPyS.Shear.C87_workflow_raises",
    "MuyGPyS.Shear.C87_workflow_two_raises",
    "MuyGPyS.Shear.C87_workflow_silent",
    "MuyGPyS.Shear.C87_workflow_wrong",
    "MuyGPyS.Shear.C87_scale_silent",
    "MuyGPyS.Shear.C87_scale_wrong",
    "MuyGPyS.Shear.C87_lool_fails",
    "MuyGPyS.Shear.C87_masked_lool_raises"
   ],
   "note": "True when the caller swaps the last two axes of the neighbour targets (as the tests of the repository do), with at least two queries and two neighbours in different numbers (C48) and, for training, the mean squared error. False of the library itself: its tensors have the axes in the other order, so regress_from_indices raises for any neighbour count but three, silently predicts from transposed observations for three, and optimize_scale silently estimates from reordered observations; lool_fn is off (C39), masked lool and looph raise (failure theorems). Closed-form shear kernels, NumPy backend; DownSampleScale not modelled with shear."
  },
  {
   "property": "C88",
   "status": "partial",
   "theorems": [
    "MuyGPyS.C88_regress_partial",
    "MuyGPyS.C88_perturb",
    "MuyGPyS.C88_other_count_fails",
    "MuyGPyS.C88_fast_fails",
    "MuyGPyS.C88_do_regress_fails",
    "MuyGPyS.C88_moved_fails"
   ],
   "note": "True when the noise tensor was made for exactly the test points (or batch) it is used with. False in general: the noise belongs to positions in the list of test points. Another number of test points raises for every data set, so do_regress with an estimated scale cannot succeed unless batch and test set have the same size, and make_fast_regressor needs a third size; the same test points in another order silently get the noise of other observations (failure theorems)."
  },
  {
   "property": "C89",
   "status": "proved",
   "theorems": [
    "MuyGPyS.C89_regress",
    "MuyGPyS.C89_heteroscedastic",
    "MuyGPyS.C89_objective",
    "MuyGPyS.C89_matern",
    "MuyGPyS.C89_objective_matern"
   ],
   "note": "One response per point; kernels with a closed formula (see C54), and the general Matern implementation with distinct training points and noise above its deficit at distance zero (C62), which is the exact Gaussian process with the noise reduced by that deficit (C89_matern at new test points, C89_objective_matern). The specification (fullCov, looError, looVar) does not mention neighbours. The variances the likelihood uses are those of noise-free values (C71), hence the noise is subtracted from the closed leave-one-out variance."
  },
  {
   "property": "C90",
   "status": "partial",
   "theorems": [
    "MuyGPyS.C90_no_leak_partial",
    "MuyGPyS.C90_duplicates_fail"
   ],
   "note": "True when no two training points coincide (in the metric of the index). False otherwise: get_batch_nns drops the first neighbour, which need not be the batch point itself; for coincident points the prediction then moves with its own response (C90_duplicates_fail, for every kernel, noise variance, number of points and neighbour count)."
  },
  {
   "property": "C91",
   "status": "partial",
   "theorems": [
    "MuyGPyS.C91_values_partial",
    "MuyGPyS.C91_heteroscedastic_partial",
    "MuyGPyS.C91_matern_partial",
    "MuyGPyS.C91_observations_fail"
   ],
   "note": "True of the values of the process (without measurement noise), conditionally on every event about the neighbours. False of responses of test points, which are what the tutorials compare with: posterior_variance does not contain the noise of a new response, so with any positive noise variance the intervals are too short, for every data set (C91_observations_fail gives the exact coverage). Values and responses drawn from the model; closed-form kernels, heteroscedastic noise made for the test points (C88), general Matern at new points (C71)."
  },
  {
   "property": "C92",
   "status": "partial",
   "theorems": [
    "MuyGPyS.C92_regress",
    "MuyGPyS.C92_agree",
    "MuyGPyS.C92_alone",
    "MuyGPyS.C92_select",
    "MuyGPyS.C92_multi_partial",
    "MuyGPyS.C92_classify_partial",
    "MuyGPyS.C92_heteroscedastic_fails",
    "MuyGPyS.C92_one_singular_fails"
   ],
   "note": "Full for one response and one noise level (or none), including which tables fail. Several responses or classes: their number must differ from nn_count (C79). False with heteroscedastic noise, which belongs to places in the table (C92_heteroscedastic_fails), and one test point with a singular neighbourhood makes a whole call raise (C92_one_singular_fails). The index is modelled as a function of the query point (scikit-learn and hnswlib search each query on its own)."
  },
  {
   "property": "C93",
   "status": "partial",
   "theorems": [
    "MuyGPyS.C93_regress",
    "MuyGPyS.C93_far_responses",
    "MuyGPyS.C93_appended",
    "MuyGPyS.C93_multi_partial"
   ],
   "note": "Full for one response and one noise level (or none). Several responses: their number must differ from nn_count (C79). Heteroscedastic noise is positional (C92). If the nn_count-th nearest training point is not unique, no radius contains exactly nn_count points and the index may choose."
  },
  {
   "property": "C94",
   "status": "partial",
   "theorems": [
    "MuyGPyS.C94_smooth_partial",
    "MuyGPyS.C94_smooth_general_partial",
    "MuyGPyS.C94_classes_partial",
    "MuyGPyS.C94_classes_general_partial"
   ],
   "note": "Closed-form kernels (RBF, Matern with fixed smoothness 1/2, 3/2, 5/2, infinity), and the general Matern kernel with a fixed or free smoothness under noise above its defect at distance zero (C62). Several responses or classes under mse, pseudo-Huber and cross entropy, batches of regressors or classifiers: C94_classes_* (cross entropy: continuous with a best model, smooth wherever no probability is clipped; the number of classes differs from nn_count, C24). Fixed or analytic scale, the noise fixed or free (with a free noise the analytic estimate uses the current noise, C40, and the objective is smooth nevertheless). Missing: DownSampleScale, with which the objective is no function (C108). Anisotropic length scales fixed last (C60). Zero noise is allowed if the training points are pairwise different."
  },
  {
   "property": "C95",
   "status": "proved",
   "theorems": [
    "MuyGPyS.C95_exact_responses",
    "MuyGPyS.C95_noisy_responses",
    "MuyGPyS.C95_attained"
   ],
   "note": "One response; exact neighbours; RBF on squared distances or Matern 1/2, 3/2, 5/2, infinity on distances; positive noise, or non-negative noise and different training points (so the prediction always succeeds)."
  },
  {
   "property": "C96",
   "status": "proved",
   "theorems": [
    "MuyGPyS.C96_ridge",
    "MuyGPyS.C96_interpolant"
   ],
   "note": "One response; exact neighbours; RBF on squared distances or Matern 1/2, 3/2, 5/2, infinity on distances; homoscedastic noise, different training points without noise."
  },
  {
   "property": "C97",
   "status": "proved",
   "theorems": [
    "MuyGPyS.C97_random_batch",
    "MuyGPyS.C97_random_scale"
   ],
   "note": "One response; exact neighbours; closed-form kernels, or the general Matern kernel with different training points and noise above its deficit (C62); homoscedastic noise or none; for the variance losses a fixed scale; for the scale estimate iteration_count=1 (default) and nonzero responses."
  },
  {
   "property": "C98",
   "status": "partial",
   "theorems": [
    "MuyGPyS.Shear.C98_covariance",
    "MuyGPyS.Shear.C98_kernels",
    "MuyGPyS.Shear.C98_library_partial",
    "MuyGPyS.Shear.C98_library_two_partial",
    "MuyGPyS.Shear.C98_joint_covariance_fails",
    "MuyGPyS.Shear.C98_targets",
    "MuyGPyS.Shear.C98_targets_count_fails"
   ],
   "note": "Covariances, kernels, means, variances at each test point and synthetic observations in full (prediction: at least two test and two training points in different numbers, C48). False of the joint covariance: conventional_Kout fills whole blocks with the variance of one point, so the covariance of the convergences at two different test points is always too large (failure theorem); targets_from_GP needs exactly n squared points (failure theorem)."
  },
  {
   "property": "C99",
   "status": "proved",
   "theorems": [
    "MuyGPyS.C99_update"
   ],
   "note": "One response per point, homoscedastic or null noise, kernels with a closed formula (see C54)."
  },
  {
   "property": "C100",
   "status": "proved",
   "theorems": [
    "MuyGPyS.C100_averaged",
    "MuyGPyS.C100_equal_counts"
   ],
   "note": "One response per point, positive noise, kernels with a closed formula (see C54)."
  },
  {
   "property": "C101",
   "status": "proved",
   "theorems": [
    "MuyGPyS.C101_in_sample"
   ],
   "note": "One response per point; homoscedastic or no noise; training points without duplicates (C41 shows what the batch neighbours are with duplicates)."
  },
  {
   "property": "C102",
   "status": "partial",
   "theorems": [
    "MuyGPyS.Utils.C102_subsample",
    "MuyGPyS.Utils.C102_subsample_rejected",
    "MuyGPyS.Utils.C102_balanced",
    "MuyGPyS.Utils.C102_balanced_size_fails",
    "MuyGPyS.Utils.C102_normalize_actual",
    "MuyGPyS.Utils.C102_normalize_fails",
    "MuyGPyS.Utils.C102_gaussian_dict",
    "MuyGPyS.Utils.C102_scale_series"
   ],
   "note": "Samples, classes and scales as promised. False: _normalize gives rows the norm sqrt(feature_count), never 1 with two or more features, and nan for a row of zeros; a balanced sample is smaller than asked for whenever the class count does not divide it (failure theorems)."
  },
  {
   "property": "C103",
   "status": "partial",
   "theorems": [
    "MuyGPyS.Conf.C103_flags_obeyed",
    "MuyGPyS.Conf.C103_always_consistent",
    "MuyGPyS.Conf.C103_once",
    "MuyGPyS.Conf.C103_foreign",
    "MuyGPyS.Conf.C103_separate_value_fails",
    "MuyGPyS.Conf.C103_negated_ignored",
    "MuyGPyS.Conf.C103_not_installed_fails"
   ],
   "note": "Proved for --option=value and --switch. False of the code: a value in a word of its own always raises, --nomuygpys_... has no effect, and a backend chosen by flag need not be installed although the import demands it of the environment variable (failure theorems)."
  },
  {
   "property": "C104",
   "status": "proved",
   "theorems": [
    "MuyGPyS.C104_smooth",
    "MuyGPyS.C104_smooth_matern",
    "MuyGPyS.C104_long_length_scales",
    "MuyGPyS.C104_short_length_scales",
    "MuyGPyS.C104_large_noise"
   ],
   "note": "Real arithmetic. The general Matern kernel (Bessel function as its integral) needs a noise above its defect at distance zero (C62)."
  },
  {
   "property": "C105",
   "status": "proved",
   "theorems": [
    "MuyGPyS.C105_construct",
    "MuyGPyS.C105_lookup",
    "MuyGPyS.C105_batch_without_self",
    "MuyGPyS.C105_regress",
    "MuyGPyS.C105_same_points"
   ],
   "note": "hnswlib enters through the contract Hnsw.Sound: distinct labels, nearest first, RuntimeError when too few are found; nothing is assumed about the points it overlooks. C105_batch_without_self needs training points that do not coincide in the metric of the index (with duplicates the first column dropped may be the duplicate, as for the exact index, C41)."
  },
  {
   "property": "C106",
   "status": "proved",
   "theorems": [
    "MuyGPyS.C106_floor",
    "MuyGPyS.C106_dense",
    "MuyGPyS.C106_consistent"
   ],
   "note": "Real arithmetic, homoscedastic or no noise."
  },
  {
   "property": "C107",
   "status": "partial",
   "theorems": [
    "MuyGPyS.C107_smooth_partial",
    "MuyGPyS.C107_rbf_gradient",
    "MuyGPyS.C107_kink_fails"
   ],
   "note": "C107_kink_fails: at a training point the mean of a Matern 1/2 model has a kink; C107_smooth_partial states how often predictions are differentiable there for each kernel (RBF infinitely often, Matern 5/2 twice, 3/2 once) and that they are infinitely differentiable elsewhere in the region. At the border between two regions predictions can jump: C70_switch_fails."
  },
  {
   "property": "C108",
   "status": "partial",
   "theorems": [
    "MuyGPyS.C108_repeatable_partial",
    "MuyGPyS.C108_never_worse_partial",
    "MuyGPyS.C108_downsample_fails"
   ],
   "note": "True unless a variance loss (lool, looph) is combined with DownSampleScale, which draws new samples in every evaluation: then two evaluations of one model differ, and one unlucky evaluation makes the Bayesian driver return a model that is strictly worse on all samples (failure theorem). Never-worse under the conditions of C60."
  },
  {
   "property": "C109",
   "status": "partial",
   "theorems": [
    "MuyGPyS.C109_one_model_partial",
    "MuyGPyS.C109_one_model_per_class_fails"
   ],
   "note": "True of classifiers with one model for all classes; false with one model per class, whose models shrink the scores by different amounts (failure theorem: two RBF models that differ in their noise)."
  },
  {
   "property": "C110",
   "status": "partial",
   "theorems": [
    "MuyGPyS.C110_shift_partial",
    "MuyGPyS.C110_shift_fails"
   ],
   "note": "Variances never change. The mean changes by the new origin times the prediction for constant responses 1; the library has no mean function, so that for every model and every new origin there is a test point where the mean does not change by it (failure theorem)."
  },
  {
   "property": "C111",
   "status": "partial",
   "theorems": [
    "MuyGPyS.C111_accuracy_partial",
    "MuyGPyS.C111_matern_partial",
    "MuyGPyS.C111_iterations_fail",
    "MuyGPyS.C111_matern_iterations_fail"
   ],
   "note": "True of AnalyticScale with one iteration (the default); false for every iteration_count >= 2, however many neighbours (failure theorem). The variance is exactly 2 s^2 / nn_count for a batch of one point; Chebyshev inequality. Closed-form kernels, and the general Matern implementation when the noise covers its deficit at coincident points."
  },
  {
   "property": "C112",
   "status": "proved",
   "theorems": [
    "MuyGPyS.C112_objective",
    "MuyGPyS.C112_scale"
   ],
   "note": "The losses and conditions of C97: one response; exact neighbours; closed-form kernels, or the general Matern kernel with different training points and noise above its deficit (C62); homoscedastic noise or none; for the variance losses a fixed scale; for the scale estimate iteration_count=1 (default) and nonzero responses."
  },
  {
   "property": "C113",
   "status": "partial",
   "theorems": [
    "MuyGPyS.C113_rounding_partial",
    "MuyGPyS.C113_tie_fails",
    "MuyGPyS.C113_matern_fails"
   ],
   "note": "Proved for one response at test points whose nearest training points are unambiguous (and, for the general Matern implementation, with distinct points and the metric l2); both restrictions are needed: C113_tie_fails (equidistant training points: the prediction jumps), C113_matern_fails (a test point that is a training point). Homoscedastic noise or none. Arithmetic is exact: this is about rounding what is stored, not about rounding inside the computation."
  },
  {
   "property": "C114",
   "status": "partial",
   "theorems": [
    "MuyGPyS.C114_constant",
    "MuyGPyS.C114_long_exact",
    "MuyGPyS.C114_long_partial",
    "MuyGPyS.C114_neighbours_fails"
   ],
   "note": "Constant features: one response, no test point equally far from two training points. Long length scales: proved for models that use all training points as neighbours (C114_long_exact) and where the features in question do not change which training points are nearest (C114_long_partial); RBF and the closed-form Matern kernels, positive homoscedastic noise. It is false in general (C114_neighbours_fails): neighbours are found by unscaled distances, so a feature decides the neighbours however long its length scale is."
  },
  {
   "property": "C115",
   "status": "partial",
   "theorems": [
    "MuyGPyS.C115_most_likely_partial",
    "MuyGPyS.C115_iterations_fail",
    "MuyGPyS.estimate_most_likely",
    "MuyGPyS.zero_unlikely",
    "MuyGPyS.normalDensity_diagonal"
   ],
   "note": "One response, AnalyticScale with its default single iteration (C33 says what other iteration counts do). The likelihood is the product over the neighbourhoods of the batch of their normal densities. Closed-form kernels, and the general Matern implementation when the noise covers its deficit at coincident points."
  },
  {
   "property": "C116",
   "status": "partial",
   "theorems": [
    "MuyGPyS.C116_relations_partial",
    "MuyGPyS.C116_bounds_fail"
   ],
   "note": "Homogeneous linear relations, unless there are as many responses as neighbours (C24). Not so for bounds: predictions for positive responses can be less than any number (failure theorem), and not for relations with a constant (C110)."
  },
  {
   "property": "C117",
   "status": "proved",
   "theorems": [
    "MuyGPyS.C117_inexact",
    "MuyGPyS.C117_distances",
    "MuyGPyS.value_lipschitz",
    "MuyGPyS.perturbed_bound",
    "MuyGPyS.perturbed_product"
   ],
   "note": "Homoscedastic positive noise, one response. The errors are arbitrary; the solutions of the perturbed systems are exact, which covers every backward stable solver."
  },
  {
   "property": "C118",
   "status": "partial",
   "theorems": [
    "MuyGPyS.C118_true_process",
    "MuyGPyS.C118_variance",
    "MuyGPyS.C118_influence",
    "MuyGPyS.C118_error_bound",
    "MuyGPyS.C118_inexact",
    "MuyGPyS.C118_more_information",
    "MuyGPyS.C118_free_is_fixed_partial",
    "MuyGPyS.C118_deficit",
    "MuyGPyS.C118_same_noise_fails",
    "MuyGPyS.C118_training_point_fails"
   ],
   "note": "Homoscedastic noise above the deficit 1 - k(x, x) of the general implementation (C62), distinct training points, test points that are not training points. With the same noise variance the predictions differ, and at training points they differ with every noise variance (failure theorems)."
  },
  {
   "property": "C119",
   "status": "proved",
   "theorems": [
    "MuyGPyS.C119_average",
    "MuyGPyS.C119_average_matern",
    "MuyGPyS.C119_worst",
    "MuyGPyS.C119_worst_matern",
    "MuyGPyS.posterior_difference"
   ],
   "note": "One response, homoscedastic (or, for distinct points and closed-form kernels, no) noise; no test point equally far from two training points unless all training points are used (otherwise more neighbours need not include the fewer: C84_ties_fails). The general Matern implementation: data from the true Matern process, noise above the deficit (C62), new test points."
  },
  {
   "property": "C120",
   "status": "proved",
   "theorems": [
    "MuyGPyS.C120_influence",
    "MuyGPyS.C120_drop",
    "MuyGPyS.C120_limit"
   ],
   "note": "One response, closed-form kernels, positive noise. The comparison with a model without the added points is for models in which all training points are neighbours (otherwise adding a point also removes another one from the neighbours)."
  },
  {
   "property": "C121",
   "status": "partial",
   "theorems": [
    "MuyGPyS.C121_raw_partial",
    "MuyGPyS.C121_variance_fails",
    "MuyGPyS.C121_vector_fails"
   ],
   "note": "True of univariate models with several outputs and the losses of the predictions alone (batch_targets being restricted by the caller; mask and output count different from nn_count, see C24/C40). False for every variance loss and every mask (IndexError), and for responses given as a vector. Shear models with a mask: C87."
  },
  {
   "property": "C122",
   "status": "partial",
   "theorems": [
    "MuyGPyS.C122_scalar_tensor_partial",
    "MuyGPyS.C122_vector_fails",
    "MuyGPyS.C122_vector_actual"
   ],
   "note": "True of scalar and tensor hyperparameters. False for every vector and knot-based one: with NumPy the answer is a generator (truthy, neither True nor False), with JAX/PyTorch TypeError, after naming a knot-based one AttributeError. MuyGPS.fixed() asks the components one by one and is right (C61_fixed)."
  }
 ]
}