"""Generates MANIFEST.json. Run from /verif."""
import json
C=[]
def c(pid,status,thms,note):
    C.append(dict(property=pid,status=status,theorems=thms,note=note))
M='MuyGPyS.'
c('C01','proved',[M+'Mpi.C01_chunk_sizes',M+'Mpi.C01_zero_ranks'],'')
c('C02','proved',[M+'Mpi.C02_chunk_unchunk',M+'Mpi.C02_no_tensor'],'')
c('C03','proved',[M+'Mpi.C03_scatter_all_schedules'],'FIFO channels between rank 0 and each other rank; every schedule incl. rendezvous-only.')
c('C04','partial',[M+'Mpi.C04_rowwise',M+'Mpi.C04_rowwise_two',M+'Mpi.C04_nested_chunk_fails'],'True for row-wise functions on once-chunked tensors; the code violates it for the deformation methods, which chunk twice (counterexample theorem).')
c('C05','partial',[M+'Mpi.'+t for t in ['C05_mse_pseudo_huber','C05_lool_looph','C05_cross_entropy_partial','C05_cross_entropy_empty_rank_fails','C05_lool_unscaled_diverges']],'Holds for mse, pseudo-Huber, lool, looph; cross entropy needs a row on every rank; lool_fn_unscaled recurses for ever (failure theorems).')
c('C22','proved',[M+t for t in ['C22_homoscedastic','C22_homoscedastic_multi','C22_shear','C22_heteroscedastic','C22_null','C22_unsupported_rank','C22_bad_blocks']],'')
c('C24','partial',[M+t for t in ['C24_single_response','C24_multi_response_partial','C24_multi_output','C24_singular_is_error','C24_model_mean','C24_model_variance','C24_responses_eq_neighbours_fails']],'Every shape except response_count = nn_count, for which the code raises (failure theorem).')
c('C25','proved',[M+'C25_interpolates',M+'C25_regress_any'],'')
c('C26','proved',[M+'C26_linear',M+'C26_neighbour_order'],'')
c('C27','proved',[M+'C27_mean_selection',M+'C27_variance_selection'],'')
c('C28','proved',[M+'C28_variance_bounds',M+'C54_regress_always'],'')
c('C29','proved',[M+'C29_noise_monotone',M+'C29_more_neighbours'],'')
c('C30','partial',[M+'C30_scale_once',M+'C30_direct_set_is_stale',M+'C46_scale_then_variance'],'Univariate models; the multi-output class violates it (see C46).')
c('C31','partial',[M+t for t in ['C31_fast_mean_partial','C31_fast_mean_multi_partial','C31_fast_eq_regular_partial','C31_single_query_shape_fails','C31_one_neighbour_wrong','C31_one_neighbour_witness']],'Needs >= 2 training points, queries and neighbours: squeezing breaks the other cases (failure theorems).')
c('C35','proved',[M+'Loss.C35_mse',M+'Loss.C35_pseudo_huber',M+'Loss.C35_pseudo_huber_close'],'')
c('C36','proved',[M+'Loss.C36_lool_is_likelihood',M+'Loss.C36_lool_best_scale'],'')
c('C37','proved',[M+'Loss.C37_looph_le_lool',M+'Loss.C37_looph_monotone',M+'Loss.C37_looph_linear_growth',M+'Loss.C37_looph_close',M+'Loss.C37_looph_tends'],'')
c('C38','partial',[M+'Loss.'+t for t in ['C38_nonneg','C38_shift_invariant','C38_targets_by_sign','C38_numpy_eq_jax','C38_torch_two_classes_partial','C38_torch_three_classes_differs']],'Backend independence is false for torch with more than two classes (failure theorem).')
c('C39','partial',[M+'Loss.'+t for t in ['C39_value_partial','C39_never_documented_value','C39_singular','C39_witness']],'The code adds the (sign, logabsdet) pair by broadcasting: the documented value is never returned (failure theorem); the value it does return is characterised.')
c('C06','proved',[M+'C06_mpi_scale'],'')
c('C33','partial',[M+t for t in ['C33_documented_formula','C33_multi_output','C33_responses_rejected','C33_nonneg','C33_scaling','C33_order','C33_iterations_not_documented','C33_iterations_zero_targets']],'Formula, sign, scaling and order invariance proved for the default single iteration; false for iteration_count >= 2 (Heron iteration converging to the square root) and for several responses (failure theorems).')
c('C34','proved',[M+t for t in ['C34_downsample','C34_zero_counts_accepted','C34_negative_counts_rejected']],'')
c('C07','partial',[M+t for t in ['C07_within_tolerance_partial','C07_accepts_iff','C07_fixed_accepts','C07_bounds_accepted_iff','C07_rejections','C07_documented_fails','C07_set_bounds_fails','C07_set_bounds_history','C07_fix_history','C07_refused_bounds_history']],'The code only guarantees the bounds up to an absolute tolerance, accepts equal bounds, and _set_bounds does not re-check the value (failure theorems).')
c('C08','proved',[M+t for t in ['C08_sample_in_bounds','C08_sample_succeeds','C08_sample_rejected','C08_ranks_agree']],'Over extended reals without rounding.')
c('C09','proved',[M+'C09_fixed_untouched'],'')
c('C12','partial',[M+'C12_opt_lists',M+'C12_null_noise_fails'],'All models with homoscedastic or heteroscedastic noise; NullNoise models raise (failure theorem).')
c('C13','partial',[M+t for t in ['C13_model_from_answer','C13_in_bounds','C13_idempotent','C13_nan_answer_stored']],'Real answers; a NaN answer is stored as is (failure theorem).')
c('C14','proved',[M+t for t in ['C14_crosswise','C14_out_of_range','C14_mismatch_broadcast']],'Mismatched but broadcastable index tensors are not rejected (C14_mismatch_broadcast).')
c('C15','proved',[M+t for t in ['C15_pairwise','C15_out_of_range','C15_antisymmetric','C15_distances_symmetric','C15_matches_crosswise']],'NumPy backend; torch/jax differ on 1-D data.')
c('C16','proved',[M+t for t in ['C16_predict_tensors','C16_train_tensors','C16_predict_distances']],'')
c('C17','proved',[M+'C17_metrics',M+'C17_any_rank'],'')
c('C23','partial',[M+t for t in ['C23_nonneg_partial','C23_heteroscedastic','C23_negative_bounds_refused','C23_negative_fixed_accepted','C23_negative_unfixed_accepted','C23_null_noise_not_queryable']],'Negative fixed and slightly negative bounded noise is accepted, NullNoise cannot be queried (failure theorems).')
c('C10','partial',[M+t for t in ['C10_only_own_keywords','C10_override_partial','C10_closed_form_ignores_keyword','C10_closed_form_witness','C10_stale_after_set']],'False for a smoothness keyword given to a closed-form Matern (fixed smoothness) and after set_params (failure theorems).')
c('C11','partial',[M+t for t in ['C11_actual','C11_own_dimension_partial','C11_swapped_fails','C11_swapped_witness','C11_extra_rejected']],'The code applies overridden length scales first, in keyword order: right only when the overridden ones are a prefix; failure theorems otherwise.')
c('C18','proved',[M+'C18_deformations_agree',M+'C18_count_mismatch'],'')
c('C19','proved',[M+'C19_strictly_decreasing',M+'C19_correlation',M+'C19_kernel_call'],'')
c('C20','proved',[M+'C20_rbf_is_smooth_matern',M+'C20_selection',M+'C20_unfixed_keyword_used'],'')
c('C21','proved',[M+'C21_symmetric_unit_diagonal',M+'C21_definite',M+'C21_solves_succeed'],'')
c('C32','partial',[M+t for t in ['C32_update','C32_nearest_first','C32_double_update_repeats','C32_fast_predict_tensors','C32_workflow_actual','C32_workflow_fails']],'The update itself and make_fast_predict_tensors keep their promise; fast_posterior_mean_any applies the update twice, so coefficients and cross-covariances use different neighbourhoods (failure theorem with witness).')
c('C41','partial',[M+t for t in ['C41_plain','C41_rejected','C41_batch_partial','C41_batch_always','C41_duplicates_fail','C41_wrong_rank']],'Self-exclusion needs the batch point to be separated from the other training points; with repeated points the code can return the point itself (failure theorem). The exact index is assumed to satisfy the nearest-neighbour contract.')
c('C54','partial',[M+t for t in ['C54_regress','C54_regress_multi_partial','C54_regress_any','C54_multi_output_partial','C54_regress_multi_variance_partial','C54_components','C44_multi_output_partial','C54_regress_always','C54_indices_always']],'Univariate and multi-output regression; response_count = nn_count excluded (see C24).')
c('C40','partial',[M+x for x in ('C40_raw','C40_variance_partial','C40_unscaled_lool_fails','C40_analytic_noise_fails','C40_response_matrix_fails','C40_response_column_ranking_fails','C40_column_objective_fails','C40_adapter')],'Full for prediction-only losses; for variance losses it holds when the scale estimate does not depend on a trial noise, and is false (witness) when noise is optimised together with an analytic scale, for lool_fn_unscaled, which always raises, and for responses given as the documented (N, 1) matrix, where every residual is weighed with every variance (witnesses).')
c('C46','partial',[M+x for x in ('C46_mean_partial','C46_independent_partial','C46_one_neighbour_fails','C46_response_count','C46_variance_actual','C46_variance_partial','C46_variance_fails','C46_scale','C46_scale_then_variance','C46_scale_witness','C46_metric_mismatch_fails')],'Means for any number of outputs except one neighbour (raises); the variance carries one scale factor too many, metrics of models other than the first are ignored (failure theorems).')
c('C47','partial',[M+x for x in ('C47_coefficients_actual','C47_mean_actual','C47_fails','C47_zero_targets_partial','C47_witness','C47_succeeds','C47_contraction')],'The code drops the values it computes and returns zeros: false for every model and data with a nonzero coefficient (failure theorem), true only for zero targets.')
c('C42','partial',[M+x for x in ('C42_batch','C42_neighbours_partial','C42_rejected')],'The batch and its size in full; self-exclusion of the neighbours needs separated points (C41).')
c('C43','partial',[M+x for x in ('C43_filtered_partial','C43_fractional_labels_fail','C43_balanced_actual','C43_balanced_partial','C43_short_class_fails','C43_fewer_than_classes_empty','C43_choice','C43_witness')],'Filtering for integer labels (labels are truncated to integers: fractional labels fail); balance when every class has enough non-constant points (failure theorems otherwise).')
c('C44','partial',[M+x for x in ('C44_constant','C44_actual','C44_two_class_partial','C44_multi_output_partial','C44_three_classes_fails','C44_uq_partial','C44_mask_counts','C44_uq_multi_output_fails','C44_always_partial')],'Holds for neighbourhoods the code treats as constant or mixed correctly: it compares only the first label column, so with three or more classes a mixed neighbourhood can be treated as constant (failure theorem); the uncertainty workflow raises for multi-output models (failure theorem).')
c('C45','partial',[M+x for x in ('C45_masks_actual','C45_masks_partial','C45_masks_fails','C45_counts','C45_all_ambiguous','C45_calibration','C45_cutoffs','C45_cutoffs_degenerate','C45_calibration_threshold_fails')],'Counts, masks and calibration as coded; the masks use cutoff*variance where calibration uses cutoff*standard deviation and the calibration threshold ignores mid_value (failure theorems).')
c('C48','partial',[M+'Shear.'+x for x in ('C48_symmetric','C48_pairwise_partial','C48_crosswise_partial','C48_two_observables_partial','C48_kout','C48_trial','C48_psd','C48_predict_partial','C48_predict_two_partial','C48_variance_bounds','C48_square_crosswise_fails','C48_square_crosswise_silent','C48_single_query_fails','C48_trial_variance_fails')],'Blocks are the derivative covariances, symmetric, positive semidefinite, reduced kernels are sub-blocks, predictions are kriging. Telling crosswise from pairwise fails when the numbers of queries and neighbours coincide (silently wrong for 3), a single query loses its batch axis, and the prior covariance ignores a trial length scale (failure theorems).')
K=M+'Conf.'
c('C49','partial',[K+t for t in ['C49_options_restored','C49_override_restored','C49_scope_visible','C49_update_survives_scope','C49_scope_rejects','C49_unknown_rejected','C49_import','C49_import_consistent','C49_enabled_variables_ignored','C49_derived_state_partial','C49_update_consistent','C49_outermost_scope_loses_state','C49_backend_scope_breaks_library','C49_ftype_scope_loses_type','C49_update_unvalidated_fails','C49_update_in_scope_inconsistent','C49_threads_share_state','C49_define','C49_full_fails','C49_consistent_selects','C49_flags_read']],
  'Option values are restored by every well-nested program, exceptions and other threads included. The derived config.state is not: leaving an outermost scope sets it to None, updates are not validated, and it is shared by threads (refuted by theorems). Model is the Config class used when JAX is not installed; the absl-backed command-line flags are C103.')
c('C50','partial',[M+t for t in ['C50_values_partial','C50_reflexive_partial','C50_symmetric_partial','C50_transitive_partial','C50_kernel_ignored_fails','C50_asymmetric_fails','C50_key_error','C50_nan_fails','C50_array_noise_fails','C50_bounds_ignored']],
  'Equivalence laws and value discrimination hold for models whose hyperparameter names agree and whose values are neither NaN nor arrays; the code ignores the kernel class, can be asymmetric, raises KeyError, and NaN breaks reflexivity (failure theorems).')
H=M+'Share.'
c('C51','partial',[H+t for t in ['C51_explicit_partial','C51_explicit_changes_nothing_else','C51_optimised','C51_default_length_scale_fails','C51_default_noise_fails','C51_default_scale_fails']],
  'Holds for models whose hyperparameters were all given explicitly and for optimised models; models built with default arguments share the default objects (failure theorems).')
c('C52','partial',[M+t for t in ['C52_count_mismatch','C52_listed','C52_value','C52_singular','C52_interpolates_partial','C52_residual','C52_interpolation_fails','C52_linear','C52_trial_partial','C52_trial_smoothness','C52_trial_fails','C52_kernel','C52_features_needed','C52_always']],
  'The value is the kriging mean from the knots: linear, and exact at the knots without noise. With the default noise 1e-5 it reproduces the knot values only if they are all zero; trial values given for other than the first knots are permuted (failure theorems).')
O=M+'Opt.'
c('C55','partial',[O+t for t in ['C55_counts_partial','C55_counts_fails','C55_last_epoch_best','C55_keep_state','C55_probe_previous','C55_anisotropic_fails','C55_keywords_needed','C55_forgets_fails']],
  'Holds with keep_state (best of all epochs) and probe_previous (every earlier answer re-evaluated); with neither, the answer is only the best of the last epoch and can be worse than the initial point; anisotropic models fail for more than one epoch; init_points = 0 draws unreported points (failure theorems). bayes_opt is modelled by its documented bookkeeping.')
c('C56','proved',[O+'C56_bayes_never_worse'],'bayes_opt is modelled by its documented bookkeeping; random points and suggestions are arbitrary; real-valued objectives.')
c('C53','partial',[M+t for t in ['C53_difference_tensors','C53_vector_features_fails','C53_heteroscedastic','C53_jax_posterior','C53_jax_multi_variance','C53_jax_multi_mean_fails','C53_fast_coefficients','C53_fast_mean','C53_jax_scale','C53_jax_multi_scale','C53_vector_losses','C53_torch_matrix_loss_fails','C53_numpy_mse_link','C53_lool_matrix_fails','C53_lool_square_fails','C53_matern_gen_partial','C53_matern_gen_documented','C53_matern_gen_zero_fails','C53_shear','C53_shear_object','C53_torch_shear_mean','C53_jax_shear_fails']],
  'The functions whose text differs between backends agree on feature tables, single-output posteriors, heteroscedastic noise, single-output scale, fast coefficients and losses of vectors. They differ (failure theorems) on one-dimensional data, multi-output means and scales in jax, torch losses of matrices (a vector, not a number), lool of matrices of variances, the general Matern kernel at zero distance, and the shear model in jax. Functions with identical text share the NumPy model.')
D=M+'Deep.'
c('C57','partial',[D+t for t in ['C57_returned_lookup','C57_evaluation_mode_partial','C57_training_mode_fails','C57_refresh_unused_fails','C57_frequency_irrelevant_fails','C57_self_neighbour_fails','C57_loss_names','C57_lool_value','C57_lool_responses_fails']],
  'The returned lookup indexes the embedding of the returned parameters, in evaluation mode when u divides T-1. Otherwise the model comes back in training mode; the refreshed neighbours are stored on the module and never used in training, contain the point itself, the documented loss l1 is refused and the default loss raises for several responses (failure theorems).')
c('C58','partial',[D+t for t in ['C58_only_length_scale','C58_declarations_unused_fails','C58_fixed_changes_fails']],
  'Nothing but the length scale (and the embedding) changes; the fixed flag and the bounds of the length scale are ignored (failure theorems).')
c('C59','proved',[D+t for t in ['C59_forward','C59_predict','C59_predict_always']],'One response per point; univariate layer; invertible covariances; arbitrary embedding, deterministic in evaluation mode; the nearest-neighbour construction is assumed to be exact.')
c('C60','partial',[M+t for t in ['C60_scipy_partial','C60_bayes_never_worse_partial','C60_fixed_first_fails','C60_eleven_fails']],
  'Holds when no anisotropic length scale is fixed before a free one, for at most ten of them where bayes_opt sorts names, and unless, under a variance loss, an analytic scale is estimated together with a free noise or a scale is estimated from random samples (DownSampleScale, C108). Otherwise an optimiser that finds the exact optimum can return a model that scores strictly worse than the initial one (failure theorems; see also C40_analytic_noise_fails). The optimisers are arbitrary; numpy backend.')
c('C61','partial',[M+t for t in ['C61_fixed','C61_null_noise_fails','C61_make_regressor','C61_never_worse_partial','C61_do_regress','C61_make_classifier','C61_do_classify','C61_training_succeeds','C61_zero_responses_fails','C61_do_regress_always','C61_do_classify_always']],
  'Univariate models. Training data, scale and predictions as promised; with a closed-form kernel and sufficient noise nothing fails except an analytic scale of all-zero responses (ValueError) and NullNoise models (AttributeError). Never-worse only under the conditions of C60.')
c('C62','partial',[M+t for t in ['C62_matern','C62_correlation','C62_special_cases','C62_zero_distance','C62_diagonal_vanishes','C62_definite_partial','C62_negative_variance']],
  'The documented correlation at every positive distance, for all smoothness values. At distance zero the general implementation returns the value at machine epsilon, which is below 1 (and tends to 0 with the smoothness): covariances are positive definite only with noise above that deficit, below it variances can be negative (failure theorem). scipy gamma/kv are modelled as the exact functions.')
c('C63','proved',[M+'Mem.'+t for t in ['C63_unchanged','C63_fresh','C63_session','C63_null_fails','C63_session_null_fails','C63_implementation_overwrites']],
  'NumPy backend, MPI off; arrays are whole contiguous buffers, a temporary that is never written to is not a buffer of its own. NullNoise.perturb is the documented exception (shown to alias). The general Matern implementation itself overwrites its argument (C63_implementation_overwrites): the kernel is safe because the deformation allocates.')
c('C64','partial',[M+t for t in ['C64_count','C64_fixed','C64_arguments','C64_tuple_fails','C64_alone','C64_alone_converse','C64_scale','C64_training_succeeds','C64_do_regress','C64_captured','C64_optimisers_capture','C64_variance_partial','C64_variance_fails','C64_make_classifier','C64_classifier_converse','C64_do_classify']],
  'Models that share deformation kind and metric (otherwise C46_metric_mismatch_fails), no NullNoise, more than one neighbour (C46_one_neighbour_fails). Training, scales, means and surrogate predictions are those of the models alone. Variances are right only for models built with scale 1: otherwise the old scale is multiplied in (failure theorem). do_classify refuses a tuple (failure theorem).')
c('C65','partial',[M+t for t in ['C65_model','C65_actual','C65_do_fast','C65_linear','C65_right_iff','C65_interpolation_fails','C65_multi_zero','C65_multi_fails']],
  'Training, coefficients and linearity as promised. The prediction pairs each coefficient with the wrong neighbour (the index array is shifted twice): it is the documented kriging mean for all responses only at points equally correlated with all the neighbours, and noise-free interpolation fails for every data set; with one model per response everything returned is zero (failure theorems). At least two test points and two neighbours; different training points.')
c('C66','partial',[M+t for t in ['C66_similar','C66_affine','C66_ties_fails','C66_single_unit_fails']],
  'For a trained univariate model, one response, noise that does not depend on the test point. Any reordering of training and test points together with any similarity (one length scale) or with shifts, column exchange and a common unit (several length scales), for different Euclidean indices on both sides, as long as no test point is equally far from two training points. With ties the order of the training points changes the prediction, and so does the unit of a single feature, because neighbours are chosen by unscaled distances (failure theorems).')
c('C67','partial',[M+t for t in ['C67_actual','C67_result','C67_unanimous','C67_nested','C67_undecided','C67_succeeds','C67_one_hot_fails','C45_masks_fails','C45_calibration_threshold_fails']],
  'Univariate model, two label columns where the first decides, neighbour count other than 2 (C44), exact index. Undecided points are flagged for symmetric labels (a, -a); with one-hot labels a point with equal scores need not be flagged (failure theorem). The interval is prediction +- cutoff * variance where the calibration uses the standard deviation and threshold 0 (C45 failure theorems). Success for the built-in objectives and a calibration batch count of at least the training set size.')
c('C68','partial',[D+t for t in ['C68_forward_partial','C68_predict_partial','C68_alone_partial','C68_returned_lookup','C68_lool_value','C68_untrained_fails']],
  'Predictions are those of the models alone in the trained embedding (models sharing deformation kind and metric, more than one neighbour). The layer registers no parameter with torch: no length scale or noise is ever trained, and refreshed neighbours are not used (failure theorem); variances carry the scale twice (C46_variance_fails). Arbitrary embedding, deterministic in evaluation mode; exact index.')
c('C69','proved',[M+t for t in ['C69_prior','C69_prior_always','C69_prior_matern']],
  'One response, univariate model, exact index. C69_prior: whenever regress_any returns (it raises exactly for singular neighbourhood covariances); C69_prior_always and C69_prior_matern: conditions under which it always returns.')
c('C70','partial',[M+t for t in ['C70_continuous_partial','C70_switch_fails','C70_matern_jump']],
  'Continuous at every point whose nearest training points are unambiguous, for noise that does not depend on the test point; with the general Matern implementation, except at training points. Where the neighbours change predictions jump, and so do those of the general Matern kernel at training points (failure theorems).')
c('C71','proved',[M+t for t in ['C71_posterior','C71_optimal','C71_heteroscedastic','C71_matern']],
  'One response (several: C79), univariate model, exact index; homoscedastic, heteroscedastic or no noise, sufficient noise or different training points. For the general Matern kernel: noise above the deficit of C62, and the posterior is that of observations with the noise minus the deficit, at test points which are not training points. The statistical model exists for every kernel and data set (observed_exists).')
c('C72','partial',[M+'C72_unbiased_partial',M+'C72_matern_partial',M+'C72_iterations_fail',M+'C72_matern_iterations_fail'],
  'True of AnalyticScale with one iteration (the default); false for every iteration_count >= 2: the mean is at most (s+1)/2 (failure theorem). One response, the hyperparameters other than the scale being the true ones, homoscedastic or no noise, exact index. For the closed-form kernels (C72_unbiased_partial) and for the general Matern implementation when the noise covers its deficit at coincident points (C72_matern_partial).')
c('C73','partial',[M+t for t in ['C73_means_partial','C73_objective_partial','C73_matern_partial','C73_matern_objective_partial','C73_lool_partial','C73_lool_fails']],
  'Closed-form kernels, and (C73_matern_*, also with a free smoothness) the general Matern implementation with noise above its deficit at distance zero. Mean squared error and pseudo-Huber loss: for all models with separated training points (otherwise a point can be its own neighbour: C41). Leave-one-out likelihood: true for noise-free responses and fixed scales; with noise it is false for every model, because the loss compares the noisy response with the variance of the noise-free value (failure theorem).')
A=M+'Sampler.'
c('C74','partial',[A+t for t in ['C74_split_partial','C74_features_partial','C74_ratio_too_large_fails','C74_ratio_too_small_fails','C74_default_fails','C74_seed_fails']],
  'The split is right for every shuffle and every draw when 1 <= int(n r) <= n. Below it raises ZeroDivisionError, above it raises ValueError, also with the default arguments of UnivariateSampler2D; the seed does not determine the split, because the points are picked by the global np.random.choice (failure theorems).')
c('C75','partial',[A+t for t in ['C75_law_partial','C75_closed_partial','C75_default_partial','C75_sample_full','C75_measurement_fails']],
  'True of the kernel and the noise parameter, also for the default general Matern kernel with the default noise; the measurement noise is used as a standard deviation (failure theorem), so that the training responses have its square as variance. np.linalg.cholesky and np.random.normal are modelled by their contracts, arithmetic is exact.')
c('C76','partial',[A+t for t in ['C76_posterior_partial','C76_samplers_partial','C76_matern_partial','C76_default_partial','C76_measurement_fails']]+[M+'regress_vec_table'],
  'True of a model with the total noise variance (noise + measurement_noise squared), scale 1 and a closed-form kernel, or the general Matern kernel of the default arguments, for vectors and tables of features. With any other noise level, and so with measurement_noise itself as in the tutorials, the reported variances are wrong (failure theorem).')
P_=M+'Mpi.'
c('C77','partial',[P_+t for t in ['C77_single_rank_partial','C77_model_tensors_fail','C77_next_call_fails']],
  'True of one rank only. With two or more ranks and at least as many batch elements as ranks it is false under every schedule: the metric used inside the decorated methods scatters its own results, so that the other ranks take unmeasured differences and pieces of distances in place of targets, two messages per rank stay unreceived and are taken by the next scatter, and rank 0 never returns if sends do not buffer.')
c('C78','proved',[P_+t for t in ['C78_sequence','C78_chunk_like_serial']],
  'Scatters where each rank posts one receive per tensor; MPI channels are reliable and FIFO.')
c('C79','partial',[M+t for t in ['C79_columns_partial','C79_posterior_partial','C79_as_many_responses_as_neighbours_fails']],
  'True for every number of responses except the number of neighbours, for which regress_any raises ValueError although each response alone is predicted (failure theorem).')
c('C80','partial',[M+t for t in ['C80_change_partial','C80_history_partial','C80_set_params','C80_multi_partial','C80_set_params_fails','C80_multi_fails']],
  'True for every change of a univariate model that names one hyperparameter at a time, and for set_params with known names. False for set_params with a known and an unknown name and for optimize_scale of a multivariate model: the changes before the failure stay (failure theorems; C80_multi_partial says exactly which).')
c('C81','partial',[M+t for t in ['C81_current_partial','C81_stored','C81_after_optimize_scale','C81_smoothness_fails','C81_scale_fails']],
  'True for RBF and for changes that keep the Matern implementation. False for the smoothness set by set_params: the kernel goes on with the old closed form until the next optimize_scale, which estimates the scale with the old kernel and then switches (failure theorems).')
c('C82','partial',[M+t for t in ['C82_local_partial','C82_objective_partial','C82_positive_fails','C82_workflow_fails','C82_optimize_fails']],
  'True wherever the interpolated length scale is positive, and for trial values of the first knots in order with mean-only losses. False in general: positive knots give negative length scales, covariances above 1 and negative variances; regress_from_indices (KeyError) and optimize without batch_features (AttributeError) do not work with such models (failure theorems). Trials of other knots are permuted (C52).')
c('C83','partial',[M+t for t in ['C83_objective','C83_bayes','C83_bayes_fresh','C83_scipy','C83_do_regress_partial','C83_do_regress_bayes_partial','C83_iterations_fail']],
  'True for regression losses, an estimated scale (AnalyticScale with one iteration, DownSampleScale), or a fixed scale stated in the same unit. False for AnalyticScale(iteration_count > 1), whose estimate is not multiplied by c squared (failure theorem).')
c('C84','partial',[M+t for t in ['C84_nested','C84_more_information_partial','C84_more_points_fails','C84_ties_fails']],
  'True whenever the old neighbours of each test point are among its new ones (C84_nested: any exact index, ties or not); that is so for more neighbours, for less noise, and for r additional training points with r more neighbours, if no test point is equidistant from two training points or all training points are neighbours. Univariate model, closed-form kernel, homoscedastic or no noise. With ties false even for more neighbours over the same points (C84_ties_fails). False for additional training points with the same neighbour count: the new point can displace a more informative one (failure theorem).')
c('C85','proved',[M+t for t in ['C85_influence','C85_one_observation']],
  'Univariate model (several responses: C79), closed-form kernel, homoscedastic noise, exact index.')
c('C86','partial',[M+t for t in ['C86_renamed_partial','C86_names_matter_fails']],
  'True for two classes and for permutations that keep the first class, when the number of classes differs from the number of neighbours (C24). False in general: whether a neighbourhood counts as constant depends on the first column only, so the name of a class can decide which class is predicted (failure theorem).')
c('C87','partial',[M+'Shear.'+t for t in ['C87_predict_partial','C87_predict_two_partial','C87_objective_partial','C87_objective_two_partial','C87_scale_partial','C87_workflow_raises','C87_workflow_two_raises','C87_workflow_silent','C87_workflow_wrong','C87_scale_silent','C87_scale_wrong','C87_lool_fails','C87_masked_lool_raises']],
  'True when the caller swaps the last two axes of the neighbour targets (as the tests of the repository do), with at least two queries and two neighbours in different numbers (C48) and, for training, the mean squared error. False of the library itself: its tensors have the axes in the other order, so regress_from_indices raises for any neighbour count but three, silently predicts from transposed observations for three, and optimize_scale silently estimates from reordered observations; lool_fn is off (C39), masked lool and looph raise (failure theorems). Closed-form shear kernels, NumPy backend; DownSampleScale not modelled with shear.')
c('C88','partial',[M+t for t in ['C88_regress_partial','C88_perturb','C88_other_count_fails','C88_fast_fails','C88_do_regress_fails','C88_moved_fails']],
  'True when the noise tensor was made for exactly the test points (or batch) it is used with. False in general: the noise belongs to positions in the list of test points. Another number of test points raises for every data set, so do_regress with an estimated scale cannot succeed unless batch and test set have the same size, and make_fast_regressor needs a third size; the same test points in another order silently get the noise of other observations (failure theorems).')
c('C89','proved',[M+t for t in ['C89_regress','C89_heteroscedastic','C89_objective','C89_matern','C89_objective_matern']],
  'One response per point; kernels with a closed formula (see C54), and the general Matern implementation with distinct training points and noise above its deficit at distance zero (C62), which is the exact Gaussian process with the noise reduced by that deficit (C89_matern at new test points, C89_objective_matern). The specification (fullCov, looError, looVar) does not mention neighbours. The variances the likelihood uses are those of noise-free values (C71), hence the noise is subtracted from the closed leave-one-out variance.')
c('C90','partial',[M+t for t in ['C90_no_leak_partial','C90_duplicates_fail']],
  'True when no two training points coincide (in the metric of the index). False otherwise: get_batch_nns drops the first neighbour, which need not be the batch point itself; for coincident points the prediction then moves with its own response (C90_duplicates_fail, for every kernel, noise variance, number of points and neighbour count).')
c('C91','partial',[M+t for t in ['C91_values_partial','C91_heteroscedastic_partial','C91_matern_partial','C91_observations_fail']],
  'True of the values of the process (without measurement noise), conditionally on every event about the neighbours. False of responses of test points, which are what the tutorials compare with: posterior_variance does not contain the noise of a new response, so with any positive noise variance the intervals are too short, for every data set (C91_observations_fail gives the exact coverage). Values and responses drawn from the model; closed-form kernels, heteroscedastic noise made for the test points (C88), general Matern at new points (C71).')
c('C92','partial',[M+t for t in ['C92_regress','C92_agree','C92_alone','C92_select','C92_multi_partial','C92_classify_partial','C92_heteroscedastic_fails','C92_one_singular_fails']],
  'Full for one response and one noise level (or none), including which tables fail. Several responses or classes: their number must differ from nn_count (C79). False with heteroscedastic noise, which belongs to places in the table (C92_heteroscedastic_fails), and one test point with a singular neighbourhood makes a whole call raise (C92_one_singular_fails). The index is modelled as a function of the query point (scikit-learn and hnswlib search each query on its own).')
c('C93','partial',[M+t for t in ['C93_regress','C93_far_responses','C93_appended','C93_multi_partial']],
  'Full for one response and one noise level (or none). Several responses: their number must differ from nn_count (C79). Heteroscedastic noise is positional (C92). If the nn_count-th nearest training point is not unique, no radius contains exactly nn_count points and the index may choose.')
c('C94','partial',[M+t for t in ['C94_smooth_partial','C94_smooth_general_partial','C94_classes_partial','C94_classes_general_partial']],
  'Closed-form kernels (RBF, Matern with fixed smoothness 1/2, 3/2, 5/2, infinity), and the general Matern kernel with a fixed or free smoothness under noise above its defect at distance zero (C62). Several responses or classes under mse, pseudo-Huber and cross entropy, batches of regressors or classifiers: C94_classes_* (cross entropy: continuous with a best model, smooth wherever no probability is clipped; the number of classes differs from nn_count, C24). Fixed or analytic scale, the noise fixed or free (with a free noise the analytic estimate uses the current noise, C40, and the objective is smooth nevertheless). Missing: DownSampleScale, with which the objective is no function (C108). Anisotropic length scales fixed last (C60). Zero noise is allowed if the training points are pairwise different.')
c('C95','proved',[M+t for t in ['C95_exact_responses','C95_noisy_responses','C95_attained']],
  'One response; exact neighbours; RBF on squared distances or Matern 1/2, 3/2, 5/2, infinity on distances; positive noise, or non-negative noise and different training points (so the prediction always succeeds).')
c('C96','proved',[M+t for t in ['C96_ridge','C96_interpolant']],
  'One response; exact neighbours; RBF on squared distances or Matern 1/2, 3/2, 5/2, infinity on distances; homoscedastic noise, different training points without noise.')
c('C97','proved',[M+t for t in ['C97_random_batch','C97_random_scale']],
  'One response; exact neighbours; closed-form kernels, or the general Matern kernel with different training points and noise above its deficit (C62); homoscedastic noise or none; for the variance losses a fixed scale; for the scale estimate iteration_count=1 (default) and nonzero responses.')
c('C98','partial',[M+'Shear.'+t for t in ['C98_covariance','C98_kernels','C98_library_partial','C98_library_two_partial','C98_joint_covariance_fails','C98_targets','C98_targets_count_fails']],
  'Covariances, kernels, means, variances at each test point and synthetic observations in full (prediction: at least two test and two training points in different numbers, C48). False of the joint covariance: conventional_Kout fills whole blocks with the variance of one point, so the covariance of the convergences at two different test points is always too large (failure theorem); targets_from_GP needs exactly n squared points (failure theorem).')
c('C99','proved',[M+'C99_update'],
  'One response per point, homoscedastic or null noise, kernels with a closed formula (see C54).')
c('C100','proved',[M+'C100_averaged',M+'C100_equal_counts'],
  'One response per point, positive noise, kernels with a closed formula (see C54).')
c('C101','proved',[M+'C101_in_sample'],
  'One response per point; homoscedastic or no noise; training points without duplicates (C41 shows what the batch neighbours are with duplicates).')
U=M+'Utils.'
c('C102','partial',[U+t for t in ['C102_subsample','C102_subsample_rejected','C102_balanced','C102_balanced_size_fails','C102_normalize_actual','C102_normalize_fails','C102_gaussian_dict','C102_scale_series']],
  'Samples, classes and scales as promised. False: _normalize gives rows the norm sqrt(feature_count), never 1 with two or more features, and nan for a row of zeros; a balanced sample is smaller than asked for whenever the class count does not divide it (failure theorems).')
c('C103','partial',[M+'Conf.'+t for t in ['C103_flags_obeyed','C103_always_consistent','C103_once','C103_foreign','C103_separate_value_fails','C103_negated_ignored','C103_not_installed_fails']],
  'Proved for --option=value and --switch. False of the code: a value in a word of its own always raises, --nomuygpys_... has no effect, and a backend chosen by flag need not be installed although the import demands it of the environment variable (failure theorems).')
c('C104','proved',[M+t for t in ['C104_smooth','C104_smooth_matern','C104_long_length_scales','C104_short_length_scales','C104_large_noise']],
  'Real arithmetic. The general Matern kernel (Bessel function as its integral) needs a noise above its defect at distance zero (C62).')
c('C105','proved',[M+t for t in ['C105_construct','C105_lookup','C105_batch_without_self','C105_regress','C105_same_points']],
  'hnswlib enters through the contract Hnsw.Sound: distinct labels, nearest first, RuntimeError when too few are found; nothing is assumed about the points it overlooks. C105_batch_without_self needs training points that do not coincide in the metric of the index (with duplicates the first column dropped may be the duplicate, as for the exact index, C41).')
c('C106','proved',[M+t for t in ['C106_floor','C106_dense','C106_consistent']],
  'Real arithmetic, homoscedastic or no noise.')
c('C107','partial',[M+t for t in ['C107_smooth_partial','C107_rbf_gradient','C107_kink_fails']],
  'C107_kink_fails: at a training point the mean of a Matern 1/2 model has a kink; C107_smooth_partial states how often predictions are differentiable there for each kernel (RBF infinitely often, Matern 5/2 twice, 3/2 once) and that they are infinitely differentiable elsewhere in the region. At the border between two regions predictions can jump: C70_switch_fails.')
c('C108','partial',[M+t for t in ['C108_repeatable_partial','C108_never_worse_partial','C108_downsample_fails']],
  'True unless a variance loss (lool, looph) is combined with DownSampleScale, which draws new samples in every evaluation: then two evaluations of one model differ, and one unlucky evaluation makes the Bayesian driver return a model that is strictly worse on all samples (failure theorem). Never-worse under the conditions of C60.')
c('C109','partial',[M+t for t in ['C109_one_model_partial','C109_one_model_per_class_fails']],
  'True of classifiers with one model for all classes; false with one model per class, whose models shrink the scores by different amounts (failure theorem: two RBF models that differ in their noise).')
c('C110','partial',[M+t for t in ['C110_shift_partial','C110_shift_fails']],
  'Variances never change. The mean changes by the new origin times the prediction for constant responses 1; the library has no mean function, so that for every model and every new origin there is a test point where the mean does not change by it (failure theorem).')
c('C111','partial',[M+t for t in ['C111_accuracy_partial','C111_matern_partial','C111_iterations_fail','C111_matern_iterations_fail']],
  'True of AnalyticScale with one iteration (the default); false for every iteration_count >= 2, however many neighbours (failure theorem). The variance is exactly 2 s^2 / nn_count for a batch of one point; Chebyshev inequality. Closed-form kernels, and the general Matern implementation when the noise covers its deficit at coincident points.')
c('C112','proved',[M+t for t in ['C112_objective','C112_scale']],
  'The losses and conditions of C97: one response; exact neighbours; closed-form kernels, or the general Matern kernel with different training points and noise above its deficit (C62); homoscedastic noise or none; for the variance losses a fixed scale; for the scale estimate iteration_count=1 (default) and nonzero responses.')
c('C113','partial',[M+t for t in ['C113_rounding_partial','C113_tie_fails','C113_matern_fails']],
  'Proved for one response at test points whose nearest training points are unambiguous (and, for the general Matern implementation, with distinct points and the metric l2); both restrictions are needed: C113_tie_fails (equidistant training points: the prediction jumps), C113_matern_fails (a test point that is a training point). Homoscedastic noise or none. Arithmetic is exact: this is about rounding what is stored, not about rounding inside the computation.')
c('C114','partial',[M+t for t in ['C114_constant','C114_long_exact','C114_long_partial','C114_neighbours_fails']],
  'Constant features: one response, no test point equally far from two training points. Long length scales: proved for models that use all training points as neighbours (C114_long_exact) and where the features in question do not change which training points are nearest (C114_long_partial); RBF and the closed-form Matern kernels, positive homoscedastic noise. It is false in general (C114_neighbours_fails): neighbours are found by unscaled distances, so a feature decides the neighbours however long its length scale is.')
c('C115','partial',[M+t for t in ['C115_most_likely_partial','C115_iterations_fail','estimate_most_likely','zero_unlikely','normalDensity_diagonal']],
  'One response, AnalyticScale with its default single iteration (C33 says what other iteration counts do). The likelihood is the product over the neighbourhoods of the batch of their normal densities. Closed-form kernels, and the general Matern implementation when the noise covers its deficit at coincident points.')
c('C116','partial',[M+t for t in ['C116_relations_partial','C116_bounds_fail']],
  'Homogeneous linear relations, unless there are as many responses as neighbours (C24). Not so for bounds: predictions for positive responses can be less than any number (failure theorem), and not for relations with a constant (C110).')
c('C117','proved',[M+t for t in ['C117_inexact','C117_distances','value_lipschitz','perturbed_bound','perturbed_product']],
  'Homoscedastic positive noise, one response. The errors are arbitrary; the solutions of the perturbed systems are exact, which covers every backward stable solver.')
c('C118','partial',[M+t for t in ['C118_true_process','C118_variance','C118_influence','C118_error_bound','C118_inexact','C118_more_information','C118_free_is_fixed_partial','C118_deficit','C118_same_noise_fails','C118_training_point_fails']],
  'Homoscedastic noise above the deficit 1 - k(x, x) of the general implementation (C62), distinct training points, test points that are not training points. With the same noise variance the predictions differ, and at training points they differ with every noise variance (failure theorems).')
c('C119','proved',[M+t for t in ['C119_average','C119_average_matern','C119_worst','C119_worst_matern','posterior_difference']],
  'One response, homoscedastic (or, for distinct points and closed-form kernels, no) noise; no test point equally far from two training points unless all training points are used (otherwise more neighbours need not include the fewer: C84_ties_fails). The general Matern implementation: data from the true Matern process, noise above the deficit (C62), new test points.')
c('C120','proved',[M+t for t in ['C120_influence','C120_drop','C120_limit']],
  'One response, closed-form kernels, positive noise. The comparison with a model without the added points is for models in which all training points are neighbours (otherwise adding a point also removes another one from the neighbours).')
c('C121','partial',[M+t for t in ['C121_raw_partial','C121_variance_fails','C121_vector_fails']],
  'True of univariate models with several outputs and the losses of the predictions alone (batch_targets being restricted by the caller; mask and output count different from nn_count, see C24/C40). False for every variance loss and every mask (IndexError), and for responses given as a vector. Shear models with a mask: C87.')
c('C122','partial',[M+t for t in ['C122_scalar_tensor_partial','C122_vector_fails','C122_vector_actual']],
  'True of scalar and tensor hyperparameters. False for every vector and knot-based one: with NumPy the answer is a generator (truthy, neither True nor False), with JAX/PyTorch TypeError, after naming a knot-based one AttributeError. MuyGPS.fixed() asks the components one by one and is right (C61_fixed).')
json.dump({"claims":C},open('MANIFEST.json','w'),indent=1)
