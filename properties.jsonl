{"id": "C01", "title": "MPI chunk sizes are a balanced partition", "statement": "When `count` rows are divided over `size` MPI ranks, exactly one chunk size is produced per rank, the sizes add up to `count`, any two sizes differ by at most one, and the surplus rows go to the highest ranks.", "quantifier": "every row count and every positive communicator size", "why_tests_cant": "Tests run with one or two ranks and a couple of row counts; off-by-one errors appear only at particular remainders.", "anchors": ["src/MuyGPyS/_src/mpi_utils.py:_get_chunk_sizes"]}
{"id": "C02", "title": "Distributing a tensor and gathering it back is the identity", "statement": "Slicing a tensor into per-rank chunks along its first axis and concatenating the chunks in rank order (what allgather + vstack/concatenate does) returns the original rows, in the original order, with none lost or duplicated.", "quantifier": "every list of rows (any length, including fewer rows than ranks) and every communicator size", "why_tests_cant": "Needs every (row count, rank count) pair, including empty chunks, which the suite never builds.", "anchors": ["src/MuyGPyS/_src/mpi_utils.py:_prepare_parallel_data", "src/MuyGPyS/_src/mpi_utils.py:_consistent_unchunk_tensor"]}
{"id": "C03", "title": "MPI scatter delivers each rank its own chunk under every schedule", "statement": "When all ranks execute the chunking call, then in every interleaving of sends and receives every rank ends holding exactly its own chunk of every returned tensor, no rank blocks for ever, and no message is left in transit.", "quantifier": "every number of ranks, every number of returned tensors, every data, every interleaving of the ranks' steps", "why_tests_cant": "Schedules cannot be enumerated by running the program, and the real suite runs on one rank.", "anchors": ["src/MuyGPyS/_src/mpi_utils.py:_big_scatter", "src/MuyGPyS/_src/mpi_utils.py:_chunk_tensor", "src/MuyGPyS/_src/mpi_utils.py:_chunk_function_tensor"]}
{"id": "C04", "title": "Row-wise computation commutes with MPI distribution", "statement": "Applying a row-wise operation (kernel, posterior mean, posterior variance, noise perturbation) to each rank's chunk and gathering the results equals applying it to the whole tensor on one process.", "quantifier": "every row-wise function, every data, every communicator size", "why_tests_cant": "Holds or fails depending on chunk boundaries, which tests only sample.", "anchors": ["src/MuyGPyS/_src/mpi_utils.py:mpi_chunk", "src/MuyGPyS/_src/gp/tensors/mpi.py", "src/MuyGPyS/_src/gp/muygps/mpi.py", "src/MuyGPyS/_src/gp/kernels/mpi.py"]}
{"id": "C05", "title": "MPI losses equal the serial losses", "statement": "Every loss function of the MPI backend returns, on every rank, the value the serial backend returns for the undistributed predictions, targets and variances.", "quantifier": "every prediction/target/variance data, every distribution over ranks produced by the library, every loss function", "why_tests_cant": "Global normalisation errors show only when chunks have different sizes; non-termination cannot be observed by a finite test.", "anchors": ["src/MuyGPyS/_src/optimize/loss/mpi.py", "src/MuyGPyS/_src/optimize/loss/numpy.py"]}
{"id": "C06", "title": "MPI variance-scale optimisation equals the serial one", "statement": "The MPI analytic scale estimate equals the serial estimate on the undistributed tensors.", "quantifier": "every positive batch size, neighbour count, number of ranks, kernel tensor and targets", "why_tests_cant": "Global normalisation by rank-local batch counts is only right in aggregate; uneven chunks are not covered by tests.", "anchors": ["src/MuyGPyS/_src/optimize/scale/mpi.py:_analytic_scale_optim", "src/MuyGPyS/_src/optimize/scale/numpy.py:_analytic_scale_optim"]}
{"id": "C07", "title": "Scalar hyperparameter values stay inside their bounds", "statement": "Whatever sequence of constructions, value assignments and bound assignments is applied, with rejected operations leaving the parameter unchanged, an accepted value of an unfixed parameter lies within its bounds (as documented), bounds satisfy lower < upper (as documented), and non-scalar or unknown-string values are rejected.", "quantifier": "every finite sequence of operations and every real value and bounds", "why_tests_cant": "A statement about every operation history and every real number.", "anchors": ["src/MuyGPyS/gp/hyperparameter/scalar.py:Parameter._set_val", "src/MuyGPyS/gp/hyperparameter/scalar.py:Parameter._set_bounds"]}
{"id": "C08", "title": "Sampled hyperparameter values respect the bounds", "statement": "Initialising an unfixed hyperparameter with `sample` or `log_sample` gives a value within its bounds whatever the random generator returns, and sampling a fixed parameter is rejected.", "quantifier": "every bounds pair (positive for log_sample) and every draw in the generator's range", "why_tests_cant": "Tests see finitely many draws.", "anchors": ["src/MuyGPyS/gp/hyperparameter/scalar.py:Parameter._set_val"]}
{"id": "C09", "title": "Fixed hyperparameters are never optimised", "statement": "A fixed hyperparameter contributes nothing to the optimisation vectors, and building a model from an optimiser's answer never changes its value.", "quantifier": "every model and every optimiser answer", "why_tests_cant": "Ranges over every configuration of fixed and free hyperparameters and every answer.", "anchors": ["src/MuyGPyS/gp/hyperparameter/scalar.py:NamedParameter.append_lists", "src/MuyGPyS/_src/optimize/chassis/numpy.py:_new_muygps"]}
{"id": "C10", "title": "Keyword hyperparameters override stored values and nothing else", "statement": "A hyperparameter-aware function called with keyword arguments uses the keyword value of its own parameter when supplied, the stored value otherwise, and its result does not depend on unrelated keyword arguments or their order.", "quantifier": "every keyword dictionary and every scalar-parameter configuration", "why_tests_cant": "Ranges over all keyword dictionaries, including colliding and unrelated names.", "anchors": ["src/MuyGPyS/gp/hyperparameter/scalar.py:NamedParameter.apply_fn", "src/MuyGPyS/gp/hyperparameter/scalar.py:NamedParameter.filter_kwargs", "src/MuyGPyS/gp/kernels/matern.py:Matern.get_opt_fn"]}
{"id": "C11", "title": "Anisotropic length scales are applied to their own dimension", "statement": "In an anisotropic model, dimension i of the difference tensor is divided by the value of length scale i: the keyword override if present, the stored value otherwise - regardless of which subset of length scales is being optimised and of keyword order.", "quantifier": "every number of dimensions, every subset of overridden length scales, every keyword order", "why_tests_cant": "The suite always frees all or none of the length scales in index order; the failing cases are mixed subsets and orders.", "anchors": ["src/MuyGPyS/gp/hyperparameter/vector.py:NamedVectorParameter.filter_kwargs", "src/MuyGPyS/gp/hyperparameter/vector.py:NamedVectorParameter.__call__", "src/MuyGPyS/gp/deformation/anisotropy.py:Anisotropy.__call__"]}
{"id": "C12", "title": "Optimisation parameters are listed completely and consistently", "statement": "The names, initial values and bounds handed to the optimiser are parallel lists holding exactly the unfixed hyperparameters of kernel, deformation and noise, each name once; the lists are empty exactly when the model reports itself fixed.", "quantifier": "every univariate model configuration (any kernel, deformation, noise, any fixed/free combination)", "why_tests_cant": "Combinatorially many configurations.", "anchors": ["src/MuyGPyS/gp/muygps.py:MuyGPS.get_opt_params", "src/MuyGPyS/gp/muygps.py:MuyGPS.fixed", "src/MuyGPyS/gp/kernels/matern.py:Matern.get_opt_params"]}
{"id": "C13", "title": "A model built from an optimiser answer has clamped, in-bounds values", "statement": "The model returned by optimisation differs from the input model only in its unfixed hyperparameters, each of which holds the optimiser's value clamped into its bounds; the input model is unchanged; re-applying the same answer changes nothing.", "quantifier": "every model and every real optimiser answer, inside or outside the bounds", "why_tests_cant": "Optimisers can step outside bounds by arbitrary amounts; tests see only converged runs.", "anchors": ["src/MuyGPyS/_src/optimize/chassis/numpy.py:_new_muygps"]}
{"id": "C14", "title": "Crosswise difference tensors hold query minus neighbour", "statement": "Entry (i, j) of the crosswise difference tensor is the i-th queried point minus the j-th neighbour listed for it, for every feature, and out-of-range indices are rejected.", "quantifier": "every data, every index tensors, every shape", "why_tests_cant": "Index arithmetic for all shapes.", "anchors": ["src/MuyGPyS/_src/gp/tensors/numpy.py:_crosswise_tensor", "src/MuyGPyS/gp/tensors.py"]}
{"id": "C15", "title": "Pairwise difference tensors are antisymmetric and match the crosswise ones", "statement": "Entry (i, j, k) of the pairwise difference tensor is neighbour j minus neighbour k of query i; hence it is antisymmetric, zero on the diagonal, and its induced distances are symmetric with zero diagonal.", "quantifier": "every data and every neighbour index tensor, 1-D and multi-feature data", "why_tests_cant": "For all shapes and index tensors.", "anchors": ["src/MuyGPyS/_src/gp/tensors/numpy.py:_pairwise_tensor", "src/MuyGPyS/gp/deformation/isotropy.py:Isotropy.pairwise_tensor"]}
{"id": "C16", "title": "Prediction and training tensors are mutually aligned", "statement": "For every query, entry j of the crosswise tensor, row/column j of the pairwise tensor and entry j of the neighbour targets all refer to the same training point, namely the j-th listed neighbour; batch targets refer to the batch point itself.", "quantifier": "every data set, every batch and neighbour index tensors", "why_tests_cant": "A relational property between three tensors for all index tensors.", "anchors": ["src/MuyGPyS/gp/tensors.py:make_predict_tensors", "src/MuyGPyS/gp/tensors.py:make_train_tensors", "src/MuyGPyS/gp/muygps.py:MuyGPS.make_predict_tensors"]}
{"id": "C17", "title": "l2 and F2 distances are consistent metrics", "statement": "F2 is the square of l2; l2 is non-negative, zero exactly for coincident points, symmetric and satisfies the triangle inequality.", "quantifier": "every dimension and every real points", "why_tests_cant": "Universally quantified real inequalities.", "anchors": ["src/MuyGPyS/_src/gp/tensors/numpy.py:_l2", "src/MuyGPyS/_src/gp/tensors/numpy.py:_F2", "src/MuyGPyS/gp/deformation/metric.py"]}
{"id": "C18", "title": "The three deformations agree when all length scales are equal", "statement": "For a positive length scale, distance isotropy, difference isotropy and anisotropy with that length scale in every dimension produce the same scaled distances for both metrics, and an anisotropy whose length-scale count differs from the feature count is rejected.", "quantifier": "every difference tensor, every positive length scale, both metrics", "why_tests_cant": "All reals, all shapes; l2 and F2 must scale differently.", "anchors": ["src/MuyGPyS/gp/deformation/isotropy.py", "src/MuyGPyS/gp/deformation/anisotropy.py", "src/MuyGPyS/gp/deformation/metric.py"]}
{"id": "C19", "title": "Kernel values are correlations", "statement": "RBF and every closed-form Matern kernel map a non-negative distance into (0, 1], take the value 1 exactly at distance 0, and strictly decrease with distance.", "quantifier": "every non-negative real distance", "why_tests_cant": "Monotonicity and range over all reals.", "anchors": ["src/MuyGPyS/_src/gp/kernels/numpy.py", "src/MuyGPyS/gp/kernels/matern.py", "src/MuyGPyS/gp/kernels/rbf.py"]}
{"id": "C20", "title": "RBF equals the smooth limit of Matern and closed forms are only used when sound", "statement": "The RBF kernel on squared distances equals the Matern kernel with infinite smoothness on distances; the closed-form Matern functions are selected only when the smoothness is fixed at exactly 1/2, 3/2, 5/2 or infinity, so an overriding smoothness keyword is never silently ignored for an unfixed smoothness.", "quantifier": "every distance, every smoothness value and fixed/free status", "why_tests_cant": "All reals; the selection logic must be right for each value, not the few tested.", "anchors": ["src/MuyGPyS/gp/kernels/matern.py:_set_matern_fn", "src/MuyGPyS/gp/kernels/rbf.py", "src/MuyGPyS/_src/gp/kernels/numpy.py:_matern_inf_fn"]}
{"id": "C21", "title": "Neighbourhood covariances are symmetric positive (semi)definite", "statement": "The kernel matrix of every neighbourhood is symmetric with unit diagonal; for RBF on squared distances and the closed-form Matern kernels on distances it is positive semidefinite, and positive definite if the neighbours are different points or positive homoscedastic noise is added, so the linear solves never fail.", "quantifier": "every number of neighbours, every point configuration (including repeated points), every length scale and noise > 0", "why_tests_cant": "Positive definiteness for all point sets of all sizes.", "anchors": ["src/MuyGPyS/gp/kernels/rbf.py:RBF.__call__", "src/MuyGPyS/_src/gp/noise/numpy.py:_homoscedastic_perturb"]}
{"id": "C22", "title": "Noise models perturb exactly the diagonal", "statement": "Homoscedastic noise adds the noise value to each diagonal entry of each neighbourhood covariance and changes nothing else; heteroscedastic noise adds the per-neighbour value; shear noise adds twice the value to the first observable block and the value to the others; null noise changes nothing; tensors of unsupported rank are rejected.", "quantifier": "every kernel tensor of every size, every noise value", "why_tests_cant": "All shapes, in particular the flattened multi-output layout.", "anchors": ["src/MuyGPyS/_src/gp/noise/numpy.py", "src/MuyGPyS/gp/noise/homoscedastic.py", "src/MuyGPyS/gp/noise/heteroscedastic.py", "src/MuyGPyS/gp/noise/null.py"]}
{"id": "C23", "title": "Noise variances are non-negative", "statement": "No accepted noise model has a negative noise variance, whether fixed or bounded, scalar or per-observation, and every noise model can be queried for being fixed and for its optimisation parameters.", "quantifier": "every construction arguments", "why_tests_cant": "All real arguments.", "anchors": ["src/MuyGPyS/gp/noise/homoscedastic.py:HomoscedasticNoise.__init__", "src/MuyGPyS/gp/noise/heteroscedastic.py:HeteroscedasticNoise.__init__", "src/MuyGPyS/gp/noise/null.py:NullNoise"]}
{"id": "C24", "title": "Posterior mean is the kriging mean for every shape", "statement": "For every batch size, neighbour count and response count the posterior mean of element i and response c is (K_i^-1 k_i) . y_i[:, c], and the result has shape (batch,) or (batch, responses); a singular neighbourhood covariance is reported as an error, never a silent value.", "quantifier": "every batch size, neighbour count >= 1, response count >= 1, invertible kernel matrices", "why_tests_cant": "Shape inference must be right for every combination of sizes, including coincidental equalities of sizes.", "anchors": ["src/MuyGPyS/_src/gp/muygps/numpy.py:_muygps_posterior_mean", "src/MuyGPyS/_src/gp/muygps/numpy.py:_find_matching_ndim", "src/MuyGPyS/gp/muygps.py:MuyGPS.posterior_mean"]}
{"id": "C25", "title": "Without noise the posterior interpolates the training data", "statement": "If the query coincides with one of its neighbours and the noise is zero, the posterior mean is exactly that neighbour's target and the posterior variance is zero.", "quantifier": "every neighbourhood with invertible covariance, every targets, every matching neighbour position", "why_tests_cant": "An exact identity for all kernels and configurations.", "anchors": ["src/MuyGPyS/_src/gp/muygps/numpy.py:_muygps_posterior_mean", "src/MuyGPyS/_src/gp/muygps/numpy.py:_muygps_diagonal_variance", "src/MuyGPyS/gp/muygps.py:MuyGPS.posterior_mean"]}
{"id": "C26", "title": "Posterior mean is linear in the targets and blind to neighbour order", "statement": "The posterior mean is a linear function of the neighbour targets, and posterior mean and variance do not change when the neighbours of a query are listed in another order.", "quantifier": "every targets, coefficients and permutation", "why_tests_cant": "Algebraic law over all inputs and permutations.", "anchors": ["src/MuyGPyS/_src/gp/muygps/numpy.py"]}
{"id": "C27", "title": "Batch elements do not influence each other", "statement": "Predicting a batch gives for each element the same mean and variance as predicting that element alone; predictions commute with reordering, splitting and concatenating batches.", "quantifier": "every batch and sub-selection of the batch", "why_tests_cant": "All batch compositions.", "anchors": ["src/MuyGPyS/_src/gp/muygps/numpy.py", "src/MuyGPyS/gp/muygps.py:MuyGPS.posterior_variance"]}
{"id": "C28", "title": "Posterior variance is bounded by the prior variance", "statement": "For a positive semidefinite joint covariance and non-negative noise, the posterior variance lies between 0 and the prior variance scale * Kout.", "quantifier": "every neighbourhood size, every positive semidefinite joint covariance, every noise >= 0", "why_tests_cant": "Inequalities for all positive semidefinite matrices.", "anchors": ["src/MuyGPyS/_src/gp/muygps/numpy.py:_muygps_diagonal_variance", "src/MuyGPyS/gp/muygps.py:MuyGPS.posterior_variance"]}
{"id": "C29", "title": "Posterior variance is monotone in noise and in information", "statement": "Increasing the noise never decreases the posterior variance, and enlarging the neighbour set never increases it.", "quantifier": "every positive definite neighbourhood covariance and every noise pair; every sub-neighbourhood", "why_tests_cant": "Matrix monotonicity (Schur complement) for all sizes.", "anchors": ["src/MuyGPyS/_src/gp/muygps/numpy.py:_muygps_diagonal_variance", "src/MuyGPyS/_src/gp/noise/numpy.py:_homoscedastic_perturb"]}
{"id": "C30", "title": "The variance scale scales variances once and leaves means alone", "statement": "The posterior mean does not depend on the variance scale and the posterior variance is the unscaled variance multiplied by the scale exactly once, using the scale current at the time of the call.", "quantifier": "every model, scale and neighbourhood, every history of scale updates", "why_tests_cant": "Histories of updates and all reals.", "anchors": ["src/MuyGPyS/gp/hyperparameter/scale.py:ScaleFn.scale_fn", "src/MuyGPyS/gp/muygps.py:MuyGPS.optimize_scale", "src/MuyGPyS/gp/variance.py"]}
{"id": "C31", "title": "Fast prediction equals regular prediction on the same neighbourhood", "statement": "Precomputing coefficients for each training neighbourhood and combining them with cross-covariances gives the regular posterior mean computed with that neighbourhood, in the documented shape.", "quantifier": "every batch size, neighbour count, response count and invertible kernel matrices", "why_tests_cant": "Shape collapse happens only for particular sizes (squeeze).", "anchors": ["src/MuyGPyS/_src/gp/muygps/numpy.py:_muygps_fast_posterior_mean", "src/MuyGPyS/_src/gp/muygps/numpy.py:_muygps_fast_posterior_mean_precompute", "src/MuyGPyS/gp/muygps.py:MuyGPS.fast_coefficients"]}
{"id": "C32", "title": "Fast neighbourhood update puts each point first in its own neighbourhood once", "statement": "The updated neighbourhood of training point i is i followed by its nearest k-1 other neighbours: no repetitions, same width; and the end-to-end fast workflow uses the same neighbourhood for coefficients and cross-covariances.", "quantifier": "every duplicate-free neighbour index tensor", "why_tests_cant": "All index tensors; misalignment changes predictions silently.", "anchors": ["src/MuyGPyS/_src/gp/tensors/numpy.py:_fast_nn_update", "src/MuyGPyS/examples/fast_posterior_mean.py", "src/MuyGPyS/gp/tensors.py:make_fast_predict_tensors"]}
{"id": "C33", "title": "Analytic variance scale follows its documented formula", "statement": "The analytic scale estimate is the average of y^T (K + noise)^-1 y / nn_count over the batch for every iteration count; it is non-negative, scales quadratically with the targets, inversely with the covariance, and does not depend on batch or neighbour order.", "quantifier": "every batch, neighbour count, iteration count, positive definite covariances and targets", "why_tests_cant": "A limit statement over all iteration counts and reals.", "anchors": ["src/MuyGPyS/gp/hyperparameter/scale.py:AnalyticScale.get_opt_fn", "src/MuyGPyS/_src/optimize/scale/numpy.py"]}
{"id": "C34", "title": "Downsampled scale estimates are sound", "statement": "The downsampled scale optimiser rejects neighbourhoods not larger than the sample, otherwise returns a value between the smallest and largest of the per-sample estimates whatever samples are drawn; each estimate is computed from a principal sub-neighbourhood with matching targets and never exceeds the full quadratic form.", "quantifier": "every random index draw, iteration count, down count and positive definite covariances", "why_tests_cant": "Random draws are unbounded.", "anchors": ["src/MuyGPyS/gp/hyperparameter/scale.py:DownSampleScale.get_opt_fn"]}
{"id": "C35", "title": "Regression losses vanish exactly at perfect prediction", "statement": "Mean squared error and pseudo-Huber loss are non-negative, symmetric in prediction and target, and zero exactly when predictions equal targets; the pseudo-Huber loss is bounded by half the sum of squares and by the boundary-scaled absolute error.", "quantifier": "every prediction and target tensors, every positive boundary scale", "why_tests_cant": "Real inequalities for all sizes.", "anchors": ["src/MuyGPyS/_src/optimize/loss/numpy.py:_mse_fn", "src/MuyGPyS/_src/optimize/loss/numpy.py:_pseudo_huber_fn"]}
{"id": "C36", "title": "Leave-one-out likelihood is the Gaussian log-likelihood", "statement": "The lool loss equals, up to a constant depending only on the batch size, minus twice the log of the product of Gaussian densities with the predicted means and scaled variances; for fixed predictions it is minimised over the scale exactly at the mean squared standardised residual.", "quantifier": "every predictions, targets, positive variances and scales", "why_tests_cant": "Optimality over all scales.", "anchors": ["src/MuyGPyS/_src/optimize/loss/numpy.py:_lool_fn", "src/MuyGPyS/_src/optimize/loss/numpy.py:_lool_fn_unscaled"]}
{"id": "C37", "title": "Pseudo-Huber likelihood is a robust version of lool", "statement": "The looph loss never exceeds lool, is symmetric and increasing in the absolute residual, and grows at most linearly in it.", "quantifier": "every predictions, targets, positive variances, scales and boundary scale", "why_tests_cant": "Real inequalities for all inputs.", "anchors": ["src/MuyGPyS/_src/optimize/loss/numpy.py:_looph_fn"]}
{"id": "C38", "title": "Cross-entropy loss is well behaved and backend independent", "statement": "The classification loss is non-negative, invariant under adding a constant to all the predictions of a sample, depends on targets only through which entries are positive, and has the same value in every backend.", "quantifier": "every predictions and one-hot targets", "why_tests_cant": "All real inputs and all class counts; backends agree only for special inputs.", "anchors": ["src/MuyGPyS/_src/optimize/loss/numpy.py:_cross_entropy_fn", "src/MuyGPyS/_src/optimize/loss/torch.py:_cross_entropy_fn", "src/MuyGPyS/_src/optimize/loss/jax.py:_cross_entropy_fn"]}
{"id": "C39", "title": "Multivariate lool adds each quadratic form and log-determinant once", "statement": "For multi-output predictions the lool loss is the sum over the batch of the quadratic form plus the log-determinant of the scaled covariance.", "quantifier": "every batch and positive definite covariances", "why_tests_cant": "The value is plausible for any single test; only the formula for all inputs shows it wrong.", "anchors": ["src/MuyGPyS/_src/optimize/loss/numpy.py:_lool_fn_unscaled"]}
{"id": "C40", "title": "The optimisation objective is minus the loss of the trial model", "statement": "For every trial hyperparameters, the objective handed to the optimiser equals minus the loss of the predictions a model holding those hyperparameters would make, including the variance scale that model would estimate.", "quantifier": "every trial hyperparameter values, every loss, model and data", "why_tests_cant": "All trial points; a wrong objective still optimises something.", "anchors": ["src/MuyGPyS/optimize/objective.py", "src/MuyGPyS/optimize/loss.py:make_var_predict_and_loss_fn", "src/MuyGPyS/gp/hyperparameter/scale.py:AnalyticScale.get_opt_fn"]}
{"id": "C41", "title": "Neighbour queries exclude the query point itself", "statement": "Batch neighbour queries return for each batch point k distinct training indices, none of them the point itself, nearest first; plain queries return k indices; indices and distances agree.", "quantifier": "every training set (including repeated points) and every batch", "why_tests_cant": "Fails only for coincident points; all training sets must be considered.", "anchors": ["src/MuyGPyS/neighbors.py:NN_Wrapper.get_batch_nns", "src/MuyGPyS/neighbors.py:NN_Wrapper.get_nns"]}
{"id": "C42", "title": "Batches are duplicate-free subsets of the training set", "statement": "A sampled batch has min(batch_count, train_count) distinct indices below train_count, and its neighbour tensor rows belong to the corresponding batch indices.", "quantifier": "every training size, batch size and random draw", "why_tests_cant": "All random draws and sizes.", "anchors": ["src/MuyGPyS/optimize/batch.py:sample_batch"]}
{"id": "C43", "title": "Filtered and balanced batches keep their promises", "statement": "A filtered batch contains exactly the training points whose neighbours do not all share one label; a balanced batch contains equally many distinct points of each class, all of them from the filtered set, and at most batch_count in total.", "quantifier": "every label vector, neighbour tensors, batch count and random draw", "why_tests_cant": "All labellings and draws; documented counts must hold for every class distribution.", "anchors": ["src/MuyGPyS/optimize/batch.py:full_filtered_batch", "src/MuyGPyS/optimize/batch.py:get_balanced_batch", "src/MuyGPyS/optimize/batch.py:sample_balanced_batch"]}
{"id": "C44", "title": "Constant neighbourhoods are classified by their common label and only those", "statement": "In classification, a test point whose neighbours all carry the same label receives that label's encoding, and every other test point receives the posterior mean.", "quantifier": "every label encoding with any number of classes and every neighbour tensor", "why_tests_cant": "Fails only from three classes on with particular mixtures.", "anchors": ["src/MuyGPyS/examples/classify.py:classify_any", "src/MuyGPyS/examples/two_class_classify_uq.py:classify_two_class_uq"]}
{"id": "C45", "title": "Two-class uncertainty masks count what they say", "statement": "For every objective the mask flags the predictions whose confidence interval straddles the decision threshold, and the reported counts and accuracies are the size of the ambiguous set and the accuracies on the ambiguous, unambiguous and whole test set.", "quantifier": "every predictions, variances, labels and cutoffs", "why_tests_cant": "All real inputs.", "anchors": ["src/MuyGPyS/examples/two_class_classify_uq.py:make_masks", "src/MuyGPyS/examples/two_class_classify_uq.py:do_uq"]}
{"id": "C46", "title": "Multi-output models treat outputs independently", "statement": "Posterior mean and variance of output c of a multi-output model equal those of the c-th univariate model alone, and changing one output's hyperparameters or targets never changes another output's predictions.", "quantifier": "every number of outputs, every per-output models and data", "why_tests_cant": "All combinations of per-output models.", "anchors": ["src/MuyGPyS/gp/multivariate_muygps.py:MultivariateMuyGPS.posterior_mean", "src/MuyGPyS/gp/multivariate_muygps.py:MultivariateMuyGPS.posterior_variance"]}
{"id": "C47", "title": "Multi-output fast prediction equals per-output fast prediction", "statement": "The fast coefficients and fast posterior mean of a multi-output model equal those of its univariate models.", "quantifier": "every number of outputs, models and data", "why_tests_cant": "An assignment dropped by value semantics gives zeros for every input; must be stated for all.", "anchors": ["src/MuyGPyS/gp/multivariate_muygps.py:MultivariateMuyGPS.fast_coefficients", "src/MuyGPyS/gp/multivariate_muygps.py:MultivariateMuyGPS.fast_posterior_mean", "src/MuyGPyS/_src/math/numpy.py:assign"]}
{"id": "C48", "title": "Shear covariance blocks are the covariances of Gaussian derivatives", "statement": "The convergence/shear kernel blocks are the fourth-order derivative combinations of the Gaussian kernel, the full covariance is symmetric under exchanging points and observables, the reduced (two-in) kernels are sub-blocks of the full one, and crosswise and pairwise inputs are told apart for every batch and neighbour count.", "quantifier": "every difference vector, length scale, batch size and neighbour count", "why_tests_cant": "Analytic identities for all reals; shape ambiguity only at coinciding sizes.", "anchors": ["src/MuyGPyS/_src/gp/kernels/shear/numpy.py", "src/MuyGPyS/gp/kernels/experimental/shear.py"]}
{"id": "C49", "title": "Configuration scopes restore the previous configuration", "statement": "After any well-nested sequence of configuration updates and scoped overrides, also when the body raises, each option reads as it did before the scope, including derived global state; invalid enum values are rejected.", "quantifier": "every nesting and sequence of updates and scopes", "why_tests_cant": "All histories.", "anchors": ["src/MuyGPyS/_src/config.py", "src/MuyGPyS/_src/jaxconfig.py"]}
{"id": "C50", "title": "Model equality is an equivalence distinguishing different models", "statement": "Comparing models is reflexive, symmetric and distinguishes models with different kernels or hyperparameters.", "quantifier": "every pair of models", "why_tests_cant": "All pairs.", "anchors": ["src/MuyGPyS/gp/muygps.py:MuyGPS.__eq__"]}
{"id": "C51", "title": "Models constructed independently do not share state", "statement": "Changing the hyperparameters of one model never changes a model constructed by another constructor call.", "quantifier": "every sequence of constructions and mutations", "why_tests_cant": "Aliasing appears only after particular histories (default arguments).", "anchors": ["src/MuyGPyS/gp/kernels/matern.py:Matern.__init__", "src/MuyGPyS/gp/kernels/rbf.py:RBF.__init__", "src/MuyGPyS/gp/muygps.py:MuyGPS.__init__"]}
{"id": "C52", "title": "Hierarchical parameters interpolate their knots", "statement": "A knot-based hyperparameter evaluated at its knots returns the knot values, is linear in the knot values, and mismatched knot feature/value counts are rejected.", "quantifier": "every knots with invertible knot covariance", "why_tests_cant": "Identity for all knot sets.", "anchors": ["src/MuyGPyS/gp/hyperparameter/experimental/hierarchical.py"]}
{"id": "C53", "title": "Backends compute the same functions", "statement": "The numpy, torch and jax implementations of noise, scale, posterior, loss, distance and kernel functions agree on every input all of them accept.", "quantifier": "every input accepted by both backends", "why_tests_cant": "Only sampled inputs can be compared by running; some backends cannot be run in CI.", "anchors": ["src/MuyGPyS/_src/gp", "src/MuyGPyS/_src/optimize"]}
{"id": "C54", "title": "Workflow composition uses the right neighbourhoods", "statement": "Regression and classification from indices yield for each test point the posterior computed from the training features and targets of precisely its listed neighbours.", "quantifier": "every data and index tensors", "why_tests_cant": "All index tensors.", "anchors": ["src/MuyGPyS/examples/from_indices.py", "src/MuyGPyS/examples/regress.py:regress_any", "src/MuyGPyS/examples/classify.py:classify_any"]}
{"id": "C55", "title": "Mini-batch optimisation performs the promised evaluations", "statement": "Mini-batch optimisation with E epochs probes the objective the documented number of times, carries the best point of each epoch into the next, and returns the best point seen.", "quantifier": "every epoch count, optimiser behaviour and keyword arguments", "why_tests_cant": "All optimiser behaviours.", "anchors": ["src/MuyGPyS/optimize/experimental/chassis.py"]}
{"id": "C56", "title": "Bayesian optimisation never returns something worse than it started with", "statement": "Optimising a model by Bayesian optimisation evaluates the objective at the model's initial hyperparameters, at init_points random and n_iter suggested points (5 and 20 unless given), and answers with the best of all of them, so the answer never scores worse than the initial hyperparameters.", "quantifier": "every objective, initial point, random draws, optimiser suggestions and keyword arguments", "why_tests_cant": "The optimiser's suggestions and random draws are arbitrary.", "anchors": ["src/MuyGPyS/_src/optimize/chassis/numpy.py:_bayes_opt_optimize"]}
{"id": "C57", "title": "Deep kernel training refreshes its neighbourhoods", "statement": "Training a deep kernel for T iterations with update_frequency u recomputes the neighbours of the batch in the current embedding every u iterations and the following iterations use them (a point not being its own neighbour), every documented loss is available, and the returned lookup indexes the embedding of the returned model in evaluation mode.", "quantifier": "every embedding, optimiser, data, iteration count and update frequency", "why_tests_cant": "The embedding and the optimiser are arbitrary; a run cannot show which neighbours every gradient step used.", "anchors": ["src/MuyGPyS/examples/muygps_torch.py:train_deep_kernel_muygps", "src/MuyGPyS/examples/muygps_torch.py:update_nearest_neighbors", "src/MuyGPyS/torch/muygps_layer.py:MuyGPs_layer"]}
{"id": "C58", "title": "Deep kernel training respects the hyperparameter declarations", "statement": "Training a deep kernel leaves hyperparameters declared fixed as they are, keeps the others inside their bounds, and changes nothing else of the model.", "quantifier": "every embedding, optimiser, data and training run", "why_tests_cant": "All optimiser behaviours.", "anchors": ["src/MuyGPyS/torch/muygps_layer.py:MuyGPs_layer", "src/MuyGPyS/examples/muygps_torch.py:train_deep_kernel_muygps"]}
{"id": "C59", "title": "Deep kernel predictions are kriging in the embedded space", "statement": "The layer's forward pass, and predict_single_model with a trained model and its lookup, return the kriging means and variances of the embedded points from their (nearest) neighbours in the embedded training set, with the trained hyperparameters.", "quantifier": "every embedding, trained parameters, training and test data", "why_tests_cant": "All embeddings and data.", "anchors": ["src/MuyGPyS/torch/muygps_layer.py:MuyGPs_layer.forward", "src/MuyGPyS/examples/muygps_torch.py:predict_single_model"]}
{"id": "C60", "title": "An optimised model scores what the optimiser saw", "statement": "The model returned by optimize_from_tensors holds the optimiser's answer: its score (minus the loss of its own predictions on the batch) is exactly the objective value of that answer, its free hyperparameters are within bounds, fixed ones and the scale are untouched; with Bayesian optimisation it never scores worse than the model passed in.", "quantifier": "every model, loss, batch, optimiser answer, sequence of random and suggested points", "why_tests_cant": "Every optimiser behaviour and every combination of fixed and free hyperparameters.", "anchors": ["src/MuyGPyS/optimize/chassis.py:optimize_from_tensors", "src/MuyGPyS/_src/optimize/chassis/numpy.py"]}
{"id": "C61", "title": "Training and prediction in one call do what their parts promise", "statement": "make_regressor, make_classifier, do_regress and do_classify train the given model on a batch of different training points and their neighbours, estimate the variance scale (regression) from that batch, leave a model without free hyperparameters as it is, predict with the model they return, never return a model scoring worse than the one passed in, and do not fail on valid data.", "quantifier": "every model, optimiser, loss, training set, batch draw and test set", "why_tests_cant": "Every optimiser behaviour, data set and random batch; runs show single cases.", "anchors": ["src/MuyGPyS/examples/regress.py:make_regressor", "src/MuyGPyS/examples/regress.py:do_regress", "src/MuyGPyS/examples/classify.py:make_classifier", "src/MuyGPyS/examples/classify.py:do_classify"]}
{"id": "C62", "title": "Every Matern kernel is the documented Matern correlation", "statement": "A Matern kernel of any positive smoothness returns the documented correlation 2^(1-nu)/Gamma(nu) (sqrt(2 nu) d)^nu K_nu(sqrt(2 nu) d): it is 1 for a point with itself, strictly decreasing with values in (0, 1), has the closed forms for nu = 1/2, 3/2, 5/2, tends to the RBF kernel as nu grows, and gives positive (semi)definite covariances.", "quantifier": "every smoothness, length scale, data set and neighbourhood", "why_tests_cant": "A statement about a special function at all real arguments.", "anchors": ["src/MuyGPyS/_src/gp/kernels/numpy.py:_matern_gen_fn", "src/MuyGPyS/gp/kernels/matern.py:Matern"]}
{"id": "C63", "title": "Calls leave the caller's arrays as they are", "statement": "Computing difference tensors, kernels, noise perturbations, posterior means, variances, fast coefficients and fast means, or regressing from indices, changes no array the caller holds, whether the call returns or raises, and returns arrays that share no memory with the arguments or with each other (NullNoise.perturb, documented to return its argument, excepted). A program that mixes such calls with in-place updates of its own arrays computes what it would if arrays were immutable values.", "quantifier": "every sequence of calls and in-place updates, every argument (also the same array twice), every model", "why_tests_cant": "All programs: aliasing shows only in particular interleavings of calls and updates.", "anchors": ["src/MuyGPyS/_src/gp/kernels/numpy.py:_matern_gen_fn", "src/MuyGPyS/_src/gp/noise/numpy.py:_heteroscedastic_perturb", "src/MuyGPyS/_src/gp/muygps/numpy.py", "src/MuyGPyS/examples/from_indices.py:regress_from_indices"]}
{"id": "C64", "title": "One model per response: each is trained and predicts as it would alone", "statement": "make_multivariate_regressor, make_multivariate_classifier, do_regress and do_classify with a list or tuple of models require one model per response, train every model with free hyperparameters exactly as it would be trained alone on its own response column (same batch), estimate each variance scale from its own column, return fixed models unchanged, and predict column c with model c: its kriging mean and its scaled kriging variance from the nearest training points.", "quantifier": "every list of models, optimiser, data set, batch draw and test set", "why_tests_cant": "Interaction between models: every combination of fixed and free models, scales and responses.", "anchors": ["src/MuyGPyS/examples/regress.py:make_multivariate_regressor", "src/MuyGPyS/examples/regress.py:do_regress", "src/MuyGPyS/examples/classify.py:make_multivariate_classifier", "src/MuyGPyS/examples/classify.py:do_classify", "src/MuyGPyS/gp/multivariate_muygps.py:MultivariateMuyGPS"]}
{"id": "C65", "title": "The fast workflow predicts from the neighbourhood of the closest training point", "statement": "do_fast_posterior_mean and fast_posterior_mean_any train as do_regress does, return the coefficients of every training point's own neighbourhood (the point and its nn_count - 1 nearest others), and predict each test point by the kriging mean of the neighbourhood of its closest training point: noise-free models reproduce a training response at its point, predictions are linear in the responses, and with one model per response column c is predicted by model c.", "quantifier": "every model or list of models, training and test data, neighbour count and exact nearest-neighbour index", "why_tests_cant": "All data sets and models: which neighbourhood a prediction uses shows only in its value.", "anchors": ["src/MuyGPyS/examples/fast_posterior_mean.py:do_fast_posterior_mean", "src/MuyGPyS/examples/fast_posterior_mean.py:fast_posterior_mean_any", "src/MuyGPyS/examples/fast_posterior_mean.py:make_fast_multivariate_regressor", "src/MuyGPyS/examples/from_indices.py:fast_posterior_mean_from_indices"]}
{"id": "C66", "title": "Predictions do not depend on how the data is presented", "statement": "Predicting from the same data listed in another order, in shifted, rotated or rescaled coordinates (with the length scale rescaled), with the features in another order, or with one feature and its length scale in another unit, gives every test point the same mean and variance.", "quantifier": "every model, training and test set, permutation, shift, isometry and scale factor, and every exact nearest-neighbour index", "why_tests_cant": "All data sets and transformations at once.", "anchors": ["src/MuyGPyS/examples/regress.py:regress_any", "src/MuyGPyS/neighbors.py:NN_Wrapper", "src/MuyGPyS/gp/deformation/isotropy.py:Isotropy", "src/MuyGPyS/gp/deformation/anisotropy.py:Anisotropy"]}
{"id": "C67", "title": "The uncertainty-quantified classifier flags the ambiguous points", "statement": "do_classify_uq trains as make_classifier does, predicts as classification does (common label of unanimous neighbours, kriging mean of the labels otherwise), chooses one confidence cutoff per objective from the error rates on a balanced calibration batch, and returns one mask per objective that flags the test points whose confidence interval contains the class boundary: points with unanimous neighbours are never flagged, a point with mixed neighbours and equal scores for both classes always is, the flagged sets of any two objectives are nested, and on valid data the call does not fail.", "quantifier": "every model, optimiser, training and test set, calibration batch, objective and exact nearest-neighbour index", "why_tests_cant": "All data sets, optimiser answers and batch draws; a run shows the masks of one.", "anchors": ["src/MuyGPyS/examples/two_class_classify_uq.py:do_classify_uq", "src/MuyGPyS/examples/two_class_classify_uq.py:train_two_class_interval", "src/MuyGPyS/examples/two_class_classify_uq.py:make_masks"]}
{"id": "C68", "title": "Deep kernels with one model per response predict each response with its own model", "statement": "With a MultivariateMuyGPs_layer, the forward pass and predict_model return for response c the kriging mean and variance of model c in the embedded space, as a module with that model alone would; training optimises the embedding and the length scales of the models, with the refreshed neighbours, for every documented loss.", "quantifier": "every embedding, optimiser, list of models, data set and training run", "why_tests_cant": "All embeddings, optimisers and models; a run cannot show that no hyperparameter ever moves.", "anchors": ["src/MuyGPyS/torch/multivariate_muygps_layer.py:MultivariateMuyGPs_layer", "src/MuyGPyS/examples/muygps_torch.py:predict_multiple_model", "src/MuyGPyS/examples/muygps_torch.py:predict_model", "src/MuyGPyS/examples/muygps_torch.py:train_deep_kernel_muygps"]}
{"id": "C69", "title": "Far from the training data predictions revert to the prior", "statement": "For every tolerance there is a distance such that every prediction of regress_any at a test point farther than that from all training points has a mean within the tolerance of zero and a variance within the tolerance of the variance scale, whatever the test points, their number and the neighbours chosen.", "quantifier": "every RBF or Matern kernel, length scales, noise, scale, training set, tolerance, test batch and exact nearest-neighbour index", "why_tests_cant": "A limit statement over unbounded distances and all test sets.", "anchors": ["src/MuyGPyS/examples/regress.py:regress_any", "src/MuyGPyS/gp/muygps.py:MuyGPS", "src/MuyGPyS/gp/kernels/rbf.py:RBF", "src/MuyGPyS/gp/kernels/matern.py:Matern", "src/MuyGPyS/_src/gp/kernels/numpy.py:_matern_gen_fn"]}
{"id": "C70", "title": "Predictions depend continuously on the test point", "statement": "Test points that are close enough to each other, in the same batch or in different ones, are predicted nearly the same mean and variance.", "quantifier": "every kernel, noise, training set, test point, tolerance, pair of test batches and exact nearest-neighbour index", "why_tests_cant": "A limit statement over all pairs of nearby points.", "anchors": ["src/MuyGPyS/examples/regress.py:regress_any", "src/MuyGPyS/neighbors.py:NN_Wrapper", "src/MuyGPyS/_src/gp/kernels/numpy.py:_matern_gen_fn"]}
{"id": "C71", "title": "Predictions are the Bayesian posterior", "statement": "If the responses of the training points are values of a centred Gaussian process with the model's kernel and scale plus independent Gaussian noise of scale times the model's noise variance, then for every test point the conditional law of the process there, given the responses of the point's nearest training points, is the normal law with the mean and variance regress_any returns; the prediction error is independent of those responses and has exactly the reported variance, and no other rule computed from the same responses has a smaller mean squared error.", "quantifier": "every kernel, metric, length scales, scale, noise level, training and test set, neighbour count, probability space and exact nearest-neighbour index", "why_tests_cant": "A statement about probability laws; simulation can only estimate them.", "anchors": ["src/MuyGPyS/examples/regress.py:regress_any", "src/MuyGPyS/gp/muygps.py:MuyGPS", "src/MuyGPyS/_src/gp/muygps/numpy.py:_muygps_posterior_mean", "src/MuyGPyS/_src/gp/muygps/numpy.py:_muygps_diagonal_variance"]}
{"id": "C72", "title": "The estimated variance scale is unbiased", "statement": "If the responses come from a Gaussian process with the model's kernel and noise level and an unknown variance scale, then on every sampled batch optimize_scale with an analytic scale almost surely succeeds, and the mean of the scale it sets is the true one.", "quantifier": "every model, true scale, training set, batch size, batch draw, neighbour count and probability space", "why_tests_cant": "An expectation over all responses; overlapping neighbourhoods make the summands dependent.", "anchors": ["src/MuyGPyS/gp/muygps.py:MuyGPS.optimize_scale", "src/MuyGPyS/gp/hyperparameter/scale.py:AnalyticScale", "src/MuyGPyS/_src/optimize/scale/numpy.py:_analytic_scale_optim", "src/MuyGPyS/optimize/batch.py:sample_batch"]}
{"id": "C73", "title": "On average the true hyperparameters score best", "statement": "If the responses come from one of the models an optimiser may choose, the expected value of the training objective (minus the mean squared error, the pseudo-Huber loss or the leave-one-out likelihood loss on a sampled batch) is largest at that model.", "quantifier": "every pair of models of the same kind, training set, batch size and draw, neighbour count, loss and probability space", "why_tests_cant": "An expectation over all responses, compared between all models.", "anchors": ["src/MuyGPyS/optimize/objective.py:make_loo_crossval_fn", "src/MuyGPyS/optimize/loss.py", "src/MuyGPyS/_src/optimize/loss/numpy.py", "src/MuyGPyS/optimize/batch.py:sample_batch"]}
{"id": "C74", "title": "The samplers split their points as asked and reproducibly", "statement": "A sampler of n points with training ratio r hands out int(n r) training points and all the other points for testing: every point is in exactly one of the two sets, and the features handed out are the points of the set. Two samplers with the same arguments and seed make the same split, and the default arguments work.", "quantifier": "every number of points, ratio, shuffle and sequence of random choices, in one and two dimensions", "why_tests_cant": "Ranges over every permutation and every sequence of draws.", "anchors": ["src/MuyGPyS/_test/sampler.py:SamplerBase", "src/MuyGPyS/_test/sampler.py:UnivariateSampler", "src/MuyGPyS/_test/sampler.py:UnivariateSampler2D"]}
{"id": "C75", "title": "The samplers draw from the Gaussian process they name", "statement": "The responses of a sampler are jointly Gaussian and centred, with the covariances of its kernel at the features handed out, the variance of its noise parameter at every point, and the variance of its measurement_noise parameter in addition at the training points.", "quantifier": "every number of points, ratio, split, kernel, length scales, noise and measurement noise, and every source of independent standard normal numbers", "why_tests_cant": "A statement about a joint probability law in any number of dimensions.", "anchors": ["src/MuyGPyS/_test/sampler.py:UnivariateSampler.sample", "src/MuyGPyS/_test/sampler.py:UnivariateSampler2D.sample", "src/MuyGPyS/_test/gp.py:benchmark_sample", "src/MuyGPyS/_test/gp.py:benchmark_prepare_cholK", "src/MuyGPyS/_test/gp.py:BenchmarkGP"]}
{"id": "C76", "title": "A model with the sampler's parameters predicts the sampler's data", "statement": "A model with the kernel and noise parameters of the sampler predicts, for every test point, the conditional law of the sampler's test response given the training responses of the nearest neighbours; in particular the reported variances are those of the actual errors.", "quantifier": "every sampler, split, kernel, noise, neighbour count, exact nearest-neighbour index and source of independent standard normal numbers", "why_tests_cant": "A statement about conditional laws, for the whole pipeline from sampling to prediction.", "anchors": ["src/MuyGPyS/_test/sampler.py:UnivariateSampler", "src/MuyGPyS/_test/sampler.py:UnivariateSampler2D", "src/MuyGPyS/examples/regress.py:regress_any", "docs/examples/univariate_regression_tutorial.ipynb"]}
{"id": "C77", "title": "A model distributes its tensors over the ranks", "statement": "In the MPI backend, make_predict_tensors and make_train_tensors hand every rank its own chunk of the tensors a serial run would return: whatever the schedule, gathering the chunks of each tensor in rank order gives the serial tensor, every message is received, and the call ends even if sends do not buffer.", "quantifier": "every number of ranks, batch size, metric, number of further tensors and schedule", "why_tests_cant": "Ranges over every interleaving of sends and receives on any number of ranks.", "anchors": ["src/MuyGPyS/gp/muygps.py:MuyGPS.make_predict_tensors", "src/MuyGPyS/gp/muygps.py:MuyGPS.make_train_tensors", "src/MuyGPyS/gp/multivariate_muygps.py:MultivariateMuyGPS.make_predict_tensors", "src/MuyGPyS/_src/gp/tensors/mpi.py", "src/MuyGPyS/gp/deformation/metric.py", "src/MuyGPyS/_src/mpi_utils.py:mpi_chunk"]}
{"id": "C78", "title": "Scatters in sequence do not mix", "statement": "When every rank runs the same program of scatters, each rank receives for every call and every tensor its own chunk, however far some ranks run ahead of others; when all ranks are done no message is left.", "quantifier": "every number of ranks, sequence of scatters of any tensors, and schedule", "why_tests_cant": "Ranges over every interleaving of a program of any length.", "anchors": ["src/MuyGPyS/_src/mpi_utils.py:_chunk_tensor", "src/MuyGPyS/_src/mpi_utils.py:_big_scatter", "src/MuyGPyS/_src/mpi_utils.py:_consistent_chunk_tensor"]}
{"id": "C79", "title": "Several responses are predicted as each would be alone", "statement": "With responses of shape (train_count, response_count), regress_any returns for every response the means it would return for that response alone, and the variances it would return for any of them; it fails only where it would fail for each response alone, with the same exception. So whatever holds of single-response predictions (that they are posteriors, C71) holds for every column.", "quantifier": "every kernel, noise, training set, test set, neighbour count, response table and number of responses", "why_tests_cant": "Ranges over all shapes and all values; the number of responses interacts with the number of neighbours.", "anchors": ["src/MuyGPyS/_src/gp/muygps/numpy.py:_muygps_posterior_mean", "src/MuyGPyS/examples/regress.py:regress_any", "src/MuyGPyS/examples/from_indices.py:regress_from_indices"]}
{"id": "C80", "title": "A call that raises leaves the model as it was", "statement": "When set_params, an assignment to a hyperparameter or to the noise, or optimize_scale raises an exception, the model is unchanged, so that a user who catches the exception can go on; a history of calls some of which raised ends with the model the successful calls alone produce.", "quantifier": "every model, argument and history of calls, with every pattern of exceptions", "why_tests_cant": "Ranges over every history and every point at which a call can fail.", "anchors": ["src/MuyGPyS/gp/kernels/kernel_fn.py:KernelFn.set_params", "src/MuyGPyS/gp/muygps.py:MuyGPS.optimize_scale", "src/MuyGPyS/gp/multivariate_muygps.py:MultivariateMuyGPS.optimize_scale", "src/MuyGPyS/gp/hyperparameter/scalar.py:Parameter._set_val", "src/MuyGPyS/gp/hyperparameter/scale.py:ScaleFn._set"]}
{"id": "C81", "title": "A changed hyperparameter takes effect", "statement": "After any history of in-place changes, kernel evaluations, predictions and scale estimates are those of a model newly constructed with the hyperparameters the model reports.", "quantifier": "every model and history of changes", "why_tests_cant": "Ranges over every history; the functions a model calls are bound at some earlier point of the history.", "anchors": ["src/MuyGPyS/gp/kernels/kernel_fn.py:KernelFn.set_params", "src/MuyGPyS/gp/kernels/matern.py:Matern._make", "src/MuyGPyS/gp/kernels/matern.py:_set_matern_fn", "src/MuyGPyS/gp/muygps.py:MuyGPS._make", "src/MuyGPyS/gp/muygps.py:MuyGPS.optimize_scale"]}
{"id": "C82", "title": "Nonstationary models are locally stationary", "statement": "A model whose isotropic length scale is interpolated from knots predicts at every point (batch features supplied) exactly the mean and variance of the ordinary model with the length scale of that point; with positive knot values the variances lie between zero and the variance scale; a trial evaluation during optimisation scores the model holding the trial knot values; the library's own workflows accept such models.", "quantifier": "every kernel, set of knots, knot values, data set, batch and neighbourhood", "why_tests_cant": "Ranges over all real knots, values and points; interpolated values are computed by solving linear systems.", "anchors": ["src/MuyGPyS/gp/hyperparameter/experimental/hierarchical.py:NamedHierarchicalParameter", "src/MuyGPyS/gp/deformation/isotropy.py:Isotropy", "src/MuyGPyS/gp/tensors.py:batch_features_tensor", "src/MuyGPyS/optimize/objective.py:make_loo_crossval_fn", "src/MuyGPyS/examples/from_indices.py:tensors_from_indices"]}
{"id": "C83", "title": "Predictions do not depend on the unit of the responses", "statement": "Training and predicting with all responses multiplied by a nonzero constant c gives c times the means and c squared times the variances: the objective function changes by a positive factor and a constant only (with the pseudo-Huber boundary scale in the same unit), so the same candidates win, the estimated variance scale is c squared times the one before, and no call fails that did not fail before.", "quantifier": "every c, model, data set, loss, optimiser history, neighbour count and test set", "why_tests_cant": "Ranges over all data and all units, through training and prediction.", "anchors": ["src/MuyGPyS/examples/regress.py:do_regress", "src/MuyGPyS/optimize/chassis.py:Bayes_optimize", "src/MuyGPyS/optimize/loss.py:LossFn", "src/MuyGPyS/gp/hyperparameter/scale.py:AnalyticScale", "src/MuyGPyS/gp/hyperparameter/scale.py:DownSampleScale"]}
{"id": "C84", "title": "More information never increases the reported uncertainty", "statement": "Using more neighbours, lowering the noise variance, or adding training points never increases the variance regress_any reports for any test point, whatever the responses.", "quantifier": "every kernel, training set, additional points, neighbour counts, noise levels, responses and test set", "why_tests_cant": "Ranges over all real data sets and sizes; a statement about inverses of matrices of any size.", "anchors": ["src/MuyGPyS/examples/regress.py:regress_any", "src/MuyGPyS/neighbors.py:NN_Wrapper.get_nns", "src/MuyGPyS/_src/gp/muygps/numpy.py:_muygps_diagonal_variance"]}
{"id": "C85", "title": "One observation moves a prediction by a bounded amount", "statement": "With noise variance tau > 0, changing the training responses in any way leaves all variances of regress_any as they were and moves each mean by at most the Euclidean norm of the changes divided by 2 sqrt(tau), where only the changes at training points that can be among the nn_count nearest ones count; in particular one wrong response d moves no prediction by more than |d| / (2 sqrt(tau)), and predictions far from it not at all.", "quantifier": "every kernel, data set, neighbour count, noise level, change of the responses and test set", "why_tests_cant": "An inequality for all real data, kernels and sizes.", "anchors": ["src/MuyGPyS/examples/regress.py:regress_any", "src/MuyGPyS/_src/gp/muygps/numpy.py:_muygps_posterior_mean", "src/MuyGPyS/_src/gp/noise/numpy.py:_homoscedastic_perturb"]}
{"id": "C86", "title": "The names of the classes do not matter", "statement": "Renaming the classes, that is permuting the columns of the encoded labels, permutes the scores classify_any returns in the same way; so the predicted class of every test point is the renamed one.", "quantifier": "every permutation of every number of classes, kernel, training set and test set", "why_tests_cant": "Ranges over all permutations and all data.", "anchors": ["src/MuyGPyS/examples/classify.py:classify_any"]}
{"id": "C87", "title": "Shear models work in the library's workflows", "statement": "Prediction (regress_from_indices) and training (make_train_tensors, optimize, optimize_scale) with a ShearKernel or ShearKernel2in3out model give what kriging with the covariance of the derivatives of the potential gives: means and covariances of convergence and shears at the queries, the leave-one-out loss of those predictions as objective, and the scale estimate of the observed quantities.", "quantifier": "every length scale, noise level, survey, neighbour table, batch and trial value", "why_tests_cant": "Ranges over all real data and table sizes; the existing tests reorder the targets by hand and compare only two implementations.", "anchors": ["src/MuyGPyS/examples/from_indices.py:regress_from_indices", "src/MuyGPyS/gp/kernels/experimental/shear.py:ShearKernel", "src/MuyGPyS/optimize/objective.py:make_loo_crossval_fn", "src/MuyGPyS/gp/hyperparameter/scale.py:AnalyticScale"]}
{"id": "C88", "title": "An observation's measurement noise stays with the observation", "statement": "With HeteroscedasticNoise, a prediction uses for every neighbour of the test point the measurement noise of that very observation, however the test points are ordered or counted, and the same model can be trained and used to predict.", "quantifier": "all noise-free or noisy training sets, all measurement-noise arrays, all test sets, orders and sizes, all kernels and exact indices", "why_tests_cant": "Tests build the noise tensor for the very batch they evaluate; that the noise follows the observation for every list of test points is a statement about all of them.", "anchors": ["src/MuyGPyS/gp/noise/heteroscedastic.py:HeteroscedasticNoise", "src/MuyGPyS/_src/gp/noise/numpy.py:_heteroscedastic_perturb", "src/MuyGPyS/gp/tensors.py:make_heteroscedastic_tensor", "src/MuyGPyS/examples/regress.py:regress_any,do_regress,make_regressor", "src/MuyGPyS/examples/fast_posterior_mean.py:make_fast_regressor"]}
{"id": "C89", "title": "With all training points as neighbours the model is the exact Gaussian process", "statement": "When nn_count equals the number of training points, regress_any returns exactly the predictions of ordinary Gaussian process regression with all training data, whatever the index, its metric and its order of equidistant points; when nn_count is one less, the training objective is exact leave-one-out cross-validation of that Gaussian process (Rasmussen and Williams 5.12).", "quantifier": "all training sets, responses, test sets, kernels, noise levels (also per observation), exact indices and batches", "why_tests_cant": "Tests compare with a dense Gaussian process on a few random data sets; equality for every data set and every neighbour order is a theorem of linear algebra about the code.", "anchors": ["src/MuyGPyS/examples/regress.py:regress_any", "src/MuyGPyS/gp/muygps.py:MuyGPS", "src/MuyGPyS/_src/gp/muygps/numpy.py:_muygps_posterior_mean,_muygps_diagonal_variance", "src/MuyGPyS/optimize/loss.py:mse_fn,lool_fn,pseudo_huber_fn", "src/MuyGPyS/optimize/batch.py:sample_batch", "src/MuyGPyS/neighbors.py:NN_Wrapper.get_nns"]}
{"id": "C90", "title": "A leave-one-out prediction does not use the response it is compared with", "statement": "During training, the prediction for a batch element does not depend on that element's own response: changing it changes the target of the loss but not the prediction, so the objective measures prediction of unseen data.", "quantifier": "all training sets, responses, batches, kernels, noise models and exact indices", "why_tests_cant": "A leak changes the objective only slightly and training still converges; that no data set, batch or tie order leaks is a statement about all of them.", "anchors": ["src/MuyGPyS/optimize/batch.py:sample_batch", "src/MuyGPyS/neighbors.py:NN_Wrapper.get_batch_nns", "src/MuyGPyS/gp/tensors.py:make_train_tensors", "src/MuyGPyS/gp/muygps.py:MuyGPS.posterior_mean"]}
{"id": "C91", "title": "Prediction intervals have their nominal coverage", "statement": "If the data come from the Gaussian process the model describes, the interval of z predicted standard deviations around a predicted mean contains the true value with the probability that a standard normal variable lies within z of 0, whatever the responses of the neighbours turn out to be, and the expected number of covered test points is that probability times their number.", "quantifier": "all training sets, test points, kernels, scales, noise models, exact indices, interval widths and all events about the observed responses", "why_tests_cant": "A test can estimate the coverage of one data set up to sampling error; exact coverage for every model, data set and width is a theorem.", "anchors": ["src/MuyGPyS/examples/regress.py:regress_any", "src/MuyGPyS/gp/muygps.py:MuyGPS.posterior_mean,MuyGPS.posterior_variance", "src/MuyGPyS/_test/sampler.py:print_results", "docs/examples/univariate_regression_tutorial.ipynb"]}
{"id": "C92", "title": "A prediction is a function of the test point", "statement": "What regress_any and classify_any return for a test point depends only on that point, the model and the training data: the same test points can be predicted in one call or in several, in any order, with some left out or repeated, and every one of them gets the same mean and variance (or class row) each time.", "quantifier": "all models, indices, training data and all pairs of tables of test points of any sizes", "why_tests_cant": "Batch effects (broadcasting, squeezing, positional noise) appear only for particular sizes and neighbourhoods; independence of the rest of the table is a statement about all pairs of tables.", "anchors": ["src/MuyGPyS/examples/regress.py:regress_any", "src/MuyGPyS/examples/classify.py:classify_any", "src/MuyGPyS/neighbors.py:NN_Wrapper.get_nns", "src/MuyGPyS/_src/gp/muygps/numpy.py:_muygps_posterior_mean,_muygps_diagonal_variance"]}
{"id": "C93", "title": "Training data farther away than the neighbours has no influence", "statement": "A prediction uses the nn_count nearest training points of the test point and nothing else: changing the responses of other training points, moving them while they stay farther away, removing them, appending farther ones or reordering the data leaves the predicted mean and variance exactly as they were.", "quantifier": "all models with one noise level, indices, test tables and all pairs of training sets that agree closer to the test point than a radius containing exactly nn_count points", "why_tests_cant": "Tests use one training set; independence of arbitrary changes far away is a statement about all pairs of training sets.", "anchors": ["src/MuyGPyS/examples/regress.py:regress_any", "src/MuyGPyS/neighbors.py:NN_Wrapper.get_nns", "src/MuyGPyS/gp/tensors.py:make_predict_tensors", "src/MuyGPyS/gp/muygps.py:MuyGPS.posterior_mean,MuyGPS.posterior_variance"]}
{"id": "C94", "title": "The training objective is smooth on the search box, and a best model exists", "statement": "The function handed to the optimiser (minus the objective, as a function of the array of free hyperparameters) succeeds at every point of the box given by the bounds, is infinitely differentiable there (the cross entropy: continuous, and infinitely differentiable wherever no class probability is clipped), and attains its minimum: gradient-based optimisation is meaningful and some model within the bounds is the best.", "quantifier": "all models with a closed-form kernel and positive length-scale bounds, isotropic or anisotropic, all bounds, training sets, batches, losses (mse, pseudo-Huber, lool, looph; mse, pseudo-Huber and cross entropy for several responses or classes) and fixed or analytic scales", "why_tests_cant": "Tests evaluate the objective at sampled points; differentiability and existence of an optimum concern a continuum of hyperparameters.", "anchors": ["src/MuyGPyS/optimize/chassis.py:optimize_from_tensors", "src/MuyGPyS/_src/optimize/chassis/numpy.py:_scipy_optimize", "src/MuyGPyS/optimize/objective.py:make_loo_crossval_fn", "src/MuyGPyS/_src/gp/kernels/numpy.py"]}
{"id": "C95", "title": "The reported variance bounds the error for every function the kernel can explain", "statement": "Without any probability: if the responses are values of a function of energy (squared norm in the reproducing kernel Hilbert space of the kernel) at most E, the squared error of the prediction at every test point is at most E times the variance regress_any reports there (divided by the variance scale); if every response is within epsilon of the function, at most (E + k epsilon^2 / noise) times it. Without noise no smaller number than the variance would do: some function attains it.", "quantifier": "all functions, training sets, test points, neighbour counts, isotropic or anisotropic closed-form kernels, noise levels and variance scales", "why_tests_cant": "The bound is a worst case over an infinite-dimensional space of functions; tests can only try some.", "anchors": ["src/MuyGPyS/examples/regress.py:regress_any", "src/MuyGPyS/_src/gp/muygps/numpy.py:_muygps_posterior_mean", "src/MuyGPyS/_src/gp/muygps/numpy.py:_muygps_diagonal_variance", "src/MuyGPyS/_src/gp/kernels/numpy.py"]}
{"id": "C96", "title": "A prediction is the regularised least-squares fit to the nearest training points", "statement": "With positive noise tau, the prediction of regress_any at a test point is the value there of the function minimising its energy plus the sum of squared residuals over tau at the nearest training points (kernel ridge regression); without noise, of the function of least energy through their responses. Any other function of energy E differs from the prediction by at most the square root of its excess cost times the reported variance (at unit scale).", "quantifier": "all competing functions, training sets, test points, neighbour counts, isotropic or anisotropic closed-form kernels, noise levels, variance scales", "why_tests_cant": "Optimality over an infinite-dimensional space of functions cannot be tested by trying some.", "anchors": ["src/MuyGPyS/examples/regress.py:regress_any", "src/MuyGPyS/_src/gp/muygps/numpy.py:_muygps_posterior_mean", "src/MuyGPyS/_src/gp/muygps/numpy.py:_muygps_diagonal_variance"]}
{"id": "C97", "title": "Random batches are unbiased and their order does not matter", "statement": "The training objective on a random batch does not depend on the order in which the batch was drawn and, averaged over all draws of b of the N training points, equals the objective on all training points (mse) or b/N of it (the losses that are sums: pseudo-Huber, and lool and looph with a fixed variance scale). The default analytic variance-scale estimate is likewise independent of the order and unbiased for the estimate on all training points.", "quantifier": "all training sets, responses, batch sizes 1 to N, all draws of sample_batch, kernels, noise levels", "why_tests_cant": "The average runs over every draw of every size; a test samples a few draws.", "anchors": ["src/MuyGPyS/optimize/batch.py:sample_batch", "src/MuyGPyS/optimize/objective.py:make_loo_crossval_fn", "src/MuyGPyS/_src/optimize/loss/numpy.py", "src/MuyGPyS/_src/optimize/scale/numpy.py:_analytic_scale_optim"]}
{"id": "C98", "title": "The reference implementation of the shear model", "statement": "For all points and length scales the conventional shear Gaussian process shipped in MuyGPyS._test.shear fills its matrices with the covariances of convergence and shears, the two shear kernels of the library give the same matrices, and with all training points as neighbours (in any order) the library predicts the means and variances that conventional_mean and conventional_variance predict. conventional_variance is the joint posterior covariance of all test points, and targets_from_GP draws observations from the stated Gaussian law.", "quantifier": "all tables of points, observations, length scales, noise levels and both noise models, orders of neighbours, standard normal draws", "why_tests_cant": "The repository compares the two on one grid with one length scale; agreement is an identity between formulas over all points, and the law of random draws is not observable from a sample.", "anchors": ["src/MuyGPyS/_test/shear.py:conventional_shear", "src/MuyGPyS/_test/shear.py:conventional_mean", "src/MuyGPyS/_test/shear.py:conventional_variance", "src/MuyGPyS/_test/shear.py:conventional_Kout", "src/MuyGPyS/_test/shear.py:targets_from_GP", "src/MuyGPyS/_src/gp/kernels/shear/numpy.py"]}
{"id": "C99", "title": "One more observation updates the exact model by its surprise", "statement": "With all training points as neighbours, adding a training point with its response changes each predicted mean by a gain times the surprise (response minus the mean predicted there before) and lowers each variance by the squared gain times the predictive variance of the observation; the gain does not depend on any response. In particular an observation that is exactly as predicted changes no mean, no observation raises a variance, and at the new point the prediction becomes the precision-weighted average of the old mean and the response.", "quantifier": "all kernels, training sets, added points, responses, test points, noise levels and scales", "why_tests_cant": "A relation between three runs on different data, to hold for all real inputs; tests compare single runs.", "anchors": ["src/MuyGPyS/examples/regress.py:regress_any", "src/MuyGPyS/gp/muygps.py:MuyGPS.posterior_mean", "src/MuyGPyS/gp/muygps.py:MuyGPS.posterior_variance", "src/MuyGPyS/neighbors.py:NN_Wrapper.get_nns"]}
{"id": "C100", "title": "Repeated measurements count as their precision-weighted average", "statement": "With all training points as neighbours, a training set in which sites were measured several times gives the same predictions as the set with one measurement per site, namely the average weighted by one over the noise variances, whose noise variance is one over the sum of these weights. With one common noise level and equally many measurements per site: the plain mean, and the noise level divided by their number.", "quantifier": "all kernels, sites, numbers of repetitions, responses, positive noise variances, test points and scales", "why_tests_cant": "A relation between two runs on training sets of different sizes, to hold for all real inputs, including exactly singular kernel matrices that only the noise makes solvable.", "anchors": ["src/MuyGPyS/examples/regress.py:regress_any", "src/MuyGPyS/gp/noise/heteroscedastic.py:HeteroscedasticNoise", "src/MuyGPyS/gp/tensors.py:make_heteroscedastic_tensor", "src/MuyGPyS/_src/gp/muygps/numpy.py:_muygps_posterior_mean"]}
{"id": "C101", "title": "Predicting a training point: its leave-one-out prediction, corrected by its own response", "statement": "If no two training points coincide, predicting training points with one more neighbour than in the leave-one-out objective gives the leave-one-out prediction averaged with the point's own response, with weights inversely proportional to the leave-one-out variance and the noise variance. Hence the residual there is never larger than the leave-one-out residual and the reported variance is at most the leave-one-out variance and at most the noise variance (times the scale): an in-sample check always looks at least as good as leave-one-out, and with no noise it is exact however bad the model.", "quantifier": "all kernels with a closed formula, training points without duplicates, responses, batches, neighbour counts, noise levels and scales", "why_tests_cant": "A relation between two workflows (prediction and batch preparation) for all real inputs.", "anchors": ["src/MuyGPyS/examples/regress.py:regress_any", "src/MuyGPyS/neighbors.py:NN_Wrapper.get_batch_nns", "src/MuyGPyS/neighbors.py:NN_Wrapper.get_nns", "src/MuyGPyS/_src/gp/muygps/numpy.py:_muygps_posterior_mean"]}
{"id": "C102", "title": "Data helpers: subsamples, balance, normalisation, synthetic classes, reference scale", "statement": "_subsample and _balanced_subsample return different rows of the data, features and responses kept together; a balanced sample has as many points of every class as parity allows. _normalize gives every row norm 1. _make_gaussian_dict returns labels that are the classes of the responses it returns. The mean of _get_scale_series is what AnalyticScale estimates.", "quantifier": "all data sets, sample counts and random draws", "why_tests_cant": "The random draws range over all subsets; the code validates none of it.", "anchors": ["src/MuyGPyS/_test/utils.py:_subsample", "src/MuyGPyS/_test/utils.py:_balanced_subsample", "src/MuyGPyS/_test/utils.py:_normalize", "src/MuyGPyS/_test/utils.py:_make_gaussian_dict", "src/MuyGPyS/_test/utils.py:_get_scale_series"]}
{"id": "C103", "title": "Command-line flags set the options they name", "statement": "config.parse_flags_with_absl() gives every option the value of its last flag before `--` on the command line, leaves the other options, words for other programs and thread overrides alone, keeps config.state in agreement with the options, refuses inadmissible values, and does nothing when called a second time; afterwards options are read and updated as before.", "quantifier": "all reachable configurations with admissible values and all command lines", "why_tests_cant": "The command lines are unbounded lists of arbitrary words; the tests run with the test runner's own.", "anchors": ["src/MuyGPyS/_src/config.py:MuyGPySConfig.parse_flags_with_absl", "src/MuyGPyS/_src/jaxconfig.py:Config.config_with_absl", "src/MuyGPyS/_src/jaxconfig.py:Config.complete_absl_config", "src/MuyGPyS/_src/jaxconfig.py:Config.update", "src/MuyGPyS/_src/jaxconfig.py:Config._read"]}
{"id": "C104", "title": "Predictions vary smoothly with the hyperparameters and have the expected extremes", "statement": "The predictions of regress_any are infinitely differentiable functions of the length scales, the noise and (general Matern) the smoothness, on all sensible hyperparameters, and the variances are proportional to the variance scale. With growing length scales they approach the shrunken average of the nearest responses, with shrinking ones the prior away from the training points and the shrunken own response at them, and with growing noise the prior at rate 1/noise.", "quantifier": "all training sets, exact indexes, test points, closed-form kernels (and the general Matern kernel for smoothness), length scales, noises, variance scales", "why_tests_cant": "Differentiability and limits in continuous hyperparameters cannot be observed on finitely many of them.", "anchors": ["src/MuyGPyS/examples/regress.py:regress_any", "src/MuyGPyS/gp/kernels/matern.py:Matern", "src/MuyGPyS/gp/kernels/rbf.py:RBF", "src/MuyGPyS/gp/deformation/isotropy.py:Isotropy", "src/MuyGPyS/gp/muygps.py:MuyGPS"]}
{"id": "C105", "title": "Approximate nearest-neighbour lookups", "statement": "NN_Wrapper builds the index named by nn_method in any letter case, raises ModuleNotFoundError for hnsw when hnswlib is not installed and NotImplementedError for an unknown name. With hnsw, get_nns names for every test point nn_count different training points, nearest first, with their distances, or raises RuntimeError when the index finds too few; get_batch_nns never lists a batch point among its own neighbours, even if the approximate search overlooks it, unless training points coincide; every prediction is the posterior given the points named, its variance never below that given all training points; and predictions equal those of the exact index whenever the same points are named, in whatever order.", "quantifier": "all training sets, approximate indices (whatever points they overlook), test points, batches, closed-form kernels, noises", "why_tests_cant": "What an approximate index overlooks depends on its random graph; tests see a few of its answers.", "anchors": ["src/MuyGPyS/neighbors.py:NN_Wrapper", "src/MuyGPyS/examples/regress.py:regress_any"]}
{"id": "C106", "title": "What dense data can and cannot achieve", "statement": "With noise variance t and n neighbours no training set pushes a reported variance below sigma t/(n+t). If r <= n training points lie so close to a test point that their correlation with it is at least 1-eta, the reported variance is at most sigma (t + 2 r eta)/(r+t). Without noise, predictions are consistent: for every tolerance there is a distance, depending only on the kernel, the energy of the true function and the variance scale, such that one training point within that distance of the test point makes both the error and the variance smaller than the tolerance.", "quantifier": "all training sets, Euclidean exact indices, test points, closed-form kernels, length scales, noises, variance scales, functions of bounded energy", "why_tests_cant": "The bounds are uniform over all training sets of all sizes.", "anchors": ["src/MuyGPyS/examples/regress.py:regress_any", "src/MuyGPyS/gp/muygps.py:MuyGPS", "src/MuyGPyS/gp/kernels/matern.py:Matern", "src/MuyGPyS/gp/kernels/rbf.py:RBF"]}
{"id": "C107", "title": "Predictions are smooth in the test point", "statement": "Moving a test point moves its prediction smoothly: as long as the same training points stay unambiguously its nearest neighbours, mean and variance are one infinitely differentiable function of the test point, the mean a fixed combination of kernel functions at those points; with RBF the gradient of the mean is the sum of the weights times the kernel values times the scaled directions to the training points.", "quantifier": "all training sets, Euclidean exact indices, test points, closed-form kernels, length scales, noises, responses", "why_tests_cant": "Differentiability is a statement about all small displacements of all points.", "anchors": ["src/MuyGPyS/examples/regress.py:regress_any", "src/MuyGPyS/gp/muygps.py:MuyGPS", "src/MuyGPyS/gp/kernels/matern.py:Matern", "src/MuyGPyS/gp/kernels/rbf.py:RBF"]}
{"id": "C108", "title": "The training objective is a function of the hyperparameters", "statement": "Evaluating the training objective again at the same hyperparameters on the same training tensors gives the same value, whatever random numbers were drawn in between, so that training with fresh random numbers in every evaluation is training with one fixed function, and the model the Bayesian driver returns scores at least as well as the initial one on whatever random samples the two are compared.", "quantifier": "all models, losses, training data, sequences of random samples (one per evaluation), optimiser schedules", "why_tests_cant": "Which samples the evaluations draw differs from run to run; tests fix a seed.", "anchors": ["src/MuyGPyS/optimize/objective.py:make_loo_crossval_fn", "src/MuyGPyS/gp/hyperparameter/scale.py:DownSampleScale", "src/MuyGPyS/_src/optimize/chassis/numpy.py:_bayes_opt_optimize", "src/MuyGPyS/_src/optimize/chassis/numpy.py:_scipy_optimize"]}
{"id": "C109", "title": "The numbers the classes are written with do not matter", "statement": "Writing the class labels with other numbers (a*y + b with a > 0 in place of every label y, for instance 1 and -1 in place of 1 and 0) multiplies all scores of a test point by a and changes them by a common amount, so that the predicted class of every test point stays the same.", "quantifier": "all models, training data, test points, labels, a > 0, b", "why_tests_cant": "The library documents both one-hot and one-hot-minus-a-constant encodings; tests use one encoding per data set.", "anchors": ["src/MuyGPyS/examples/classify.py:classify_any", "src/MuyGPyS/gp/muygps.py:MuyGPS", "src/MuyGPyS/gp/multivariate_muygps.py:MultivariateMuyGPS"]}
{"id": "C110", "title": "The origin of the response scale does not matter", "statement": "Measuring all responses from another origin (adding one number to each) changes every predicted mean by that number and leaves every variance as it is.", "quantifier": "all models, training data, test points, new origins", "why_tests_cant": "Tests use centred data.", "anchors": ["src/MuyGPyS/examples/regress.py:regress_any", "src/MuyGPyS/gp/muygps.py:MuyGPS.posterior_mean"]}
{"id": "C111", "title": "The estimated variance scale is accurate when there are many neighbours", "statement": "When the responses are values of a Gaussian process with the model's kernel and noise level, of unknown scale s, the scale that optimize_scale sets on a batch has variance at most 2 s^2 / nn_count, so that it misses s by a fraction e or more with probability at most 2 / (nn_count e^2).", "quantifier": "all models with an analytic scale, training data, batches, neighbour counts, scales s, e > 0", "why_tests_cant": "A statement about probabilities over data sets; tests check a few samples with wide tolerances.", "anchors": ["src/MuyGPyS/gp/hyperparameter/scale.py:AnalyticScale", "src/MuyGPyS/_src/optimize/scale/numpy.py:_analytic_scale_optim", "src/MuyGPyS/gp/muygps.py:MuyGPS.optimize_scale"]}
{"id": "C112", "title": "A larger batch gives a more accurate objective", "statement": "At any hyperparameters, the training objective per batch point on a random batch of b of the N training points has, over all ways to draw the batch, the variance of batches of one point times (N - b) / (b (N - 1)); so a larger batch is never less accurate, and the same holds for the default analytic variance-scale estimate.", "quantifier": "all models, hyperparameters, training data, batch sizes, losses that are sums or averages over the batch", "why_tests_cant": "A statement about all draws of a batch; tests fix a seed and one batch.", "anchors": ["src/MuyGPyS/optimize/batch.py:sample_batch", "src/MuyGPyS/optimize/objective.py:make_loo_crossval_fn", "src/MuyGPyS/gp/hyperparameter/scale.py:AnalyticScale"]}
{"id": "C113", "title": "Rounding the data changes predictions only a little", "statement": "If predictions can be computed for a table of test points, then for every tolerance there is a rounding error such that after changing every training feature, every response and every test feature by at most that error, and rebuilding the neighbour index, predictions can still be computed, and all their means and variances change by less than the tolerance.", "quantifier": "all models, tables, tolerances and changes of the data below the rounding error", "why_tests_cant": "A statement about all small changes of the data; tests round one data set to one precision.", "anchors": ["src/MuyGPyS/examples/regress.py:regress_any", "src/MuyGPyS/gp/muygps.py:MuyGPS", "src/MuyGPyS/neighbors.py:NN_Wrapper"]}
{"id": "C114", "title": "Features that tell nothing do not matter", "statement": "Features that have the same value in all training and test points do not change any prediction, whatever their length scales. And as the length scales of some features of an anisotropic model grow, its predictions approach those of the model without these features.", "quantifier": "all tables, sets of features, models, responses and length scales; for the limit: all tolerances", "why_tests_cant": "A statement about all data and a limit; tests drop one feature of one data set.", "anchors": ["src/MuyGPyS/examples/regress.py:regress_any", "src/MuyGPyS/gp/deformation/anisotropy.py:Anisotropy", "src/MuyGPyS/neighbors.py:NN_Wrapper"]}
{"id": "C115", "title": "The estimated variance scale is the most likely one", "statement": "For every batch, the variance scale that AnalyticScale sets is the one under which the responses of the batch's neighbourhoods are most likely as draws from the model; where all these responses are zero there is no most likely scale, and optimize_scale raises.", "quantifier": "all models, training sets, batches, responses and alternative scales", "why_tests_cant": "A maximum over all positive numbers; tests compare with the formula or with a grid.", "anchors": ["src/MuyGPyS/gp/hyperparameter/scale.py:AnalyticScale", "src/MuyGPyS/_src/optimize/scale/numpy.py:_analytic_scale_optim", "src/MuyGPyS/gp/muygps.py:MuyGPS.optimize_scale"]}
{"id": "C116", "title": "Relations among responses hold among predictions", "statement": "If the responses of every training point satisfy a homogeneous linear relation, so do the predictions at every test point.", "quantifier": "all models, data sets with several responses, relations and test points", "why_tests_cant": "A statement about all linear relations and data; tests predict given data.", "anchors": ["src/MuyGPyS/examples/regress.py:regress_any", "src/MuyGPyS/_src/gp/muygps/numpy.py:_muygps_posterior_mean"]}
{"id": "C117", "title": "Predictions computed inexactly are still good", "statement": "If covariances, cross-covariances and responses are computed with small errors, the linear systems of a prediction stay solvable, and the predicted mean and variance differ from the exact ones by an explicit amount that depends only on the sizes of the errors, the noise variance and the number of neighbours.", "quantifier": "all models with positive noise, data sets, test points and errors with nn_count times the covariance error below the noise variance", "why_tests_cant": "A bound for all perturbations; tests compare two precisions on one data set.", "anchors": ["src/MuyGPyS/_src/gp/muygps/numpy.py:_muygps_posterior_mean", "src/MuyGPyS/_src/gp/muygps/numpy.py:_muygps_diagonal_variance"]}
{"id": "C118", "title": "A free smoothness costs only a little noise", "statement": "A Matern model whose smoothness is free predicts at new points what the model with that smoothness fixed predicts with slightly less noise; so where the noise exceeds that little, its variances are between two positive numbers, its predictions answer changes of the responses no more than a fixed-smoothness model, and err by no more than the reported variance times the energy of the truth, and more information never increases its variances.", "quantifier": "all smoothnesses, length scales, noise variances above the deficit, data sets with distinct points, new test points", "why_tests_cant": "Two implementations of a kernel for all data; tests compare kernel values on samples with a tolerance.", "anchors": ["src/MuyGPyS/_src/gp/kernels/numpy.py:_matern_gen_fn", "src/MuyGPyS/gp/kernels/matern.py:_set_matern_fn", "src/MuyGPyS/examples/regress.py:regress_any"]}
{"id": "C119", "title": "The price of using few neighbours is the increase in the reported variance", "statement": "For data drawn from the model, the difference between the prediction from nn_count neighbours and the prediction from more neighbours, or from all training points (the exact Gaussian process), is normal with mean zero, and its variance is the difference of the reported variances. Whatever the data, its square is at most that difference of variances (over the variance scale) times what it takes to explain the responses: the energy of any function plus its squared residuals over the noise variance; and for some data it is that large.", "quantifier": "all models, training sets, test points and numbers of neighbours, all data drawn from the model, all responses and functions that explain them", "why_tests_cant": "A distribution over all data, and a supremum over all functions; tests compare two models on one data set.", "anchors": ["src/MuyGPyS/examples/regress.py:regress_any", "src/MuyGPyS/gp/muygps.py:MuyGPS.posterior_mean", "src/MuyGPyS/gp/muygps.py:MuyGPS.posterior_variance", "src/MuyGPyS/neighbors.py:NN_Wrapper"]}
{"id": "C120", "title": "An observation counts according to the noise declared for it", "statement": "With one declared noise variance per training point, changing responses moves a mean by at most half the root of the sum of (change)^2/noise over the training points that can be among the neighbours, and by at most the predicted standard deviation (in units of the variance scale) times the sum of |change|/noise. Adding training points to an exact model (all points neighbours) lowers variances by at most the fraction sum 1/noise of the added points, and as the noise declared for the added points grows without bound the predictions become those of the model without them, whatever their responses.", "quantifier": "all models, training sets, declared noises, test points, responses and numbers of added points", "why_tests_cant": "A bound over all responses and a limit over all noises; tests see finitely many of each.", "anchors": ["src/MuyGPyS/gp/noise/heteroscedastic.py:HeteroscedasticNoise", "src/MuyGPyS/gp/tensors.py:make_heteroscedastic_tensor", "src/MuyGPyS/examples/regress.py:regress_any", "src/MuyGPyS/gp/muygps.py:MuyGPS.posterior_mean"]}
{"id": "C121", "title": "A target mask trains on the chosen outputs", "statement": "optimize_from_tensors with target_mask scores exactly the chosen outputs: for every loss the objective with a mask equals the objective without a mask on the responses restricted to the chosen outputs (in the order of the mask), for all trial hyperparameters.", "quantifier": "all losses, masks, models, data, trial hyperparameters and scale policies", "why_tests_cant": "An equality of two objectives over all masks, data and hyperparameters; the tests train with one mask and one loss.", "anchors": ["src/MuyGPyS/optimize/loss.py:make_raw_predict_and_loss_fn", "src/MuyGPyS/optimize/loss.py:make_var_predict_and_loss_fn", "src/MuyGPyS/optimize/objective.py:make_loo_crossval_fn", "src/MuyGPyS/optimize/chassis.py:OptimizeFn"]}
{"id": "C122", "title": "fixed() tells whether the optimisers leave a hyperparameter alone", "statement": "For every hyperparameter object (scalar, vector, tensor, knot-based), h.fixed() returns a truth value that is True exactly if optimisation is handed none of its components: both `if h.fixed():` and `h.fixed() is False` then decide correctly.", "quantifier": "all hyperparameter objects with any number of fixed and free components, all array libraries", "why_tests_cant": "The equivalence ranges over every combination of fixed and free components and every backend; the tests ask scalars only.", "anchors": ["src/MuyGPyS/gp/hyperparameter/scalar.py:ScalarParameter.fixed", "src/MuyGPyS/gp/hyperparameter/vector.py:VectorParameter.fixed", "src/MuyGPyS/gp/hyperparameter/tensor.py:TensorParameter.fixed", "src/MuyGPyS/gp/hyperparameter/experimental/hierarchical.py:NamedHierarchicalParameter"]}
