#!/usr/bin/env python3
"""Regenerates /verif/properties.jsonl (the text source of the property list)."""
import json, os
P = []
def p(title, statement, quantifier, why, *anchors):
    P.append(dict(id="C%02d" % (len(P)+1), title=title, statement=statement,
                  quantifier=quantifier, why_tests_cant=why, anchors=list(anchors)))

p("MPI chunk sizes are a balanced partition",
  "When `count` rows are divided over `size` MPI ranks, exactly one chunk size is produced per rank, the sizes add up to `count`, any two sizes differ by at most one, and the surplus rows go to the highest ranks.",
  "every row count and every positive communicator size",
  "Tests run with one or two ranks and a couple of row counts; off-by-one errors appear only at particular remainders.",
  "src/MuyGPyS/_src/mpi_utils.py:_get_chunk_sizes")
p("Distributing a tensor and gathering it back is the identity",
  "Slicing a tensor into per-rank chunks along its first axis and concatenating the chunks in rank order (what allgather + vstack/concatenate does) returns the original rows, in the original order, with none lost or duplicated.",
  "every list of rows (any length, including fewer rows than ranks) and every communicator size",
  "Needs every (row count, rank count) pair, including empty chunks, which the suite never builds.",
  "src/MuyGPyS/_src/mpi_utils.py:_prepare_parallel_data", "src/MuyGPyS/_src/mpi_utils.py:_consistent_unchunk_tensor")
p("MPI scatter delivers each rank its own chunk under every schedule",
  "When all ranks execute the chunking call, then in every interleaving of sends and receives every rank ends holding exactly its own chunk of every returned tensor, no rank blocks for ever, and no message is left in transit.",
  "every number of ranks, every number of returned tensors, every data, every interleaving of the ranks' steps",
  "Schedules cannot be enumerated by running the program, and the real suite runs on one rank.",
  "src/MuyGPyS/_src/mpi_utils.py:_big_scatter", "src/MuyGPyS/_src/mpi_utils.py:_chunk_tensor", "src/MuyGPyS/_src/mpi_utils.py:_chunk_function_tensor")
p("Row-wise computation commutes with MPI distribution",
  "Applying a row-wise operation (kernel, posterior mean, posterior variance, noise perturbation) to each rank's chunk and gathering the results equals applying it to the whole tensor on one process.",
  "every row-wise function, every data, every communicator size",
  "Holds or fails depending on chunk boundaries, which tests only sample.",
  "src/MuyGPyS/_src/mpi_utils.py:mpi_chunk", "src/MuyGPyS/_src/gp/tensors/mpi.py", "src/MuyGPyS/_src/gp/muygps/mpi.py", "src/MuyGPyS/_src/gp/kernels/mpi.py")
p("MPI losses equal the serial losses",
  "Every loss function of the MPI backend returns, on every rank, the value the serial backend returns for the undistributed predictions, targets and variances.",
  "every prediction/target/variance data, every distribution over ranks produced by the library, every loss function",
  "Global normalisation errors show only when chunks have different sizes; non-termination cannot be observed by a finite test.",
  "src/MuyGPyS/_src/optimize/loss/mpi.py", "src/MuyGPyS/_src/optimize/loss/numpy.py")
p("MPI variance-scale optimisation equals the serial one",
  "The MPI analytic scale estimate equals the serial estimate on the undistributed tensors.",
  "every positive batch size, neighbour count, number of ranks, kernel tensor and targets",
  "Global normalisation by rank-local batch counts is only right in aggregate; uneven chunks are not covered by tests.",
  "src/MuyGPyS/_src/optimize/scale/mpi.py:_analytic_scale_optim", "src/MuyGPyS/_src/optimize/scale/numpy.py:_analytic_scale_optim")
p("Scalar hyperparameter values stay inside their bounds",
  "Whatever sequence of constructions, value assignments and bound assignments is applied, with rejected operations leaving the parameter unchanged, an accepted value of an unfixed parameter lies within its bounds (as documented), bounds satisfy lower < upper (as documented), and non-scalar or unknown-string values are rejected.",
  "every finite sequence of operations and every real value and bounds",
  "A statement about every operation history and every real number.",
  "src/MuyGPyS/gp/hyperparameter/scalar.py:Parameter._set_val", "src/MuyGPyS/gp/hyperparameter/scalar.py:Parameter._set_bounds")
p("Sampled hyperparameter values respect the bounds",
  "Initialising an unfixed hyperparameter with `sample` or `log_sample` gives a value within its bounds whatever the random generator returns, and sampling a fixed parameter is rejected.",
  "every bounds pair (positive for log_sample) and every draw in the generator's range",
  "Tests see finitely many draws.",
  "src/MuyGPyS/gp/hyperparameter/scalar.py:Parameter._set_val")
p("Fixed hyperparameters are never optimised",
  "A fixed hyperparameter contributes nothing to the optimisation vectors, and building a model from an optimiser's answer never changes its value.",
  "every model and every optimiser answer",
  "Ranges over every configuration of fixed and free hyperparameters and every answer.",
  "src/MuyGPyS/gp/hyperparameter/scalar.py:NamedParameter.append_lists", "src/MuyGPyS/_src/optimize/chassis/numpy.py:_new_muygps")
p("Keyword hyperparameters override stored values and nothing else",
  "A hyperparameter-aware function called with keyword arguments uses the keyword value of its own parameter when supplied, the stored value otherwise, and its result does not depend on unrelated keyword arguments or their order.",
  "every keyword dictionary and every scalar-parameter configuration",
  "Ranges over all keyword dictionaries, including colliding and unrelated names.",
  "src/MuyGPyS/gp/hyperparameter/scalar.py:NamedParameter.apply_fn", "src/MuyGPyS/gp/hyperparameter/scalar.py:NamedParameter.filter_kwargs", "src/MuyGPyS/gp/kernels/matern.py:Matern.get_opt_fn")
p("Anisotropic length scales are applied to their own dimension",
  "In an anisotropic model, dimension i of the difference tensor is divided by the value of length scale i: the keyword override if present, the stored value otherwise - regardless of which subset of length scales is being optimised and of keyword order.",
  "every number of dimensions, every subset of overridden length scales, every keyword order",
  "The suite always frees all or none of the length scales in index order; the failing cases are mixed subsets and orders.",
  "src/MuyGPyS/gp/hyperparameter/vector.py:NamedVectorParameter.filter_kwargs", "src/MuyGPyS/gp/hyperparameter/vector.py:NamedVectorParameter.__call__", "src/MuyGPyS/gp/deformation/anisotropy.py:Anisotropy.__call__")
p("Optimisation parameters are listed completely and consistently",
  "The names, initial values and bounds handed to the optimiser are parallel lists holding exactly the unfixed hyperparameters of kernel, deformation and noise, each name once; the lists are empty exactly when the model reports itself fixed.",
  "every univariate model configuration (any kernel, deformation, noise, any fixed/free combination)",
  "Combinatorially many configurations.",
  "src/MuyGPyS/gp/muygps.py:MuyGPS.get_opt_params", "src/MuyGPyS/gp/muygps.py:MuyGPS.fixed", "src/MuyGPyS/gp/kernels/matern.py:Matern.get_opt_params")
p("A model built from an optimiser answer has clamped, in-bounds values",
  "The model returned by optimisation differs from the input model only in its unfixed hyperparameters, each of which holds the optimiser's value clamped into its bounds; the input model is unchanged; re-applying the same answer changes nothing.",
  "every model and every real optimiser answer, inside or outside the bounds",
  "Optimisers can step outside bounds by arbitrary amounts; tests see only converged runs.",
  "src/MuyGPyS/_src/optimize/chassis/numpy.py:_new_muygps")
p("Crosswise difference tensors hold query minus neighbour",
  "Entry (i, j) of the crosswise difference tensor is the i-th queried point minus the j-th neighbour listed for it, for every feature, and out-of-range indices are rejected.",
  "every data, every index tensors, every shape",
  "Index arithmetic for all shapes.",
  "src/MuyGPyS/_src/gp/tensors/numpy.py:_crosswise_tensor", "src/MuyGPyS/gp/tensors.py")
p("Pairwise difference tensors are antisymmetric and match the crosswise ones",
  "Entry (i, j, k) of the pairwise difference tensor is neighbour j minus neighbour k of query i; hence it is antisymmetric, zero on the diagonal, and its induced distances are symmetric with zero diagonal.",
  "every data and every neighbour index tensor, 1-D and multi-feature data",
  "For all shapes and index tensors.",
  "src/MuyGPyS/_src/gp/tensors/numpy.py:_pairwise_tensor", "src/MuyGPyS/gp/deformation/isotropy.py:Isotropy.pairwise_tensor")
p("Prediction and training tensors are mutually aligned",
  "For every query, entry j of the crosswise tensor, row/column j of the pairwise tensor and entry j of the neighbour targets all refer to the same training point, namely the j-th listed neighbour; batch targets refer to the batch point itself.",
  "every data set, every batch and neighbour index tensors",
  "A relational property between three tensors for all index tensors.",
  "src/MuyGPyS/gp/tensors.py:make_predict_tensors", "src/MuyGPyS/gp/tensors.py:make_train_tensors", "src/MuyGPyS/gp/muygps.py:MuyGPS.make_predict_tensors")
p("l2 and F2 distances are consistent metrics",
  "F2 is the square of l2; l2 is non-negative, zero exactly for coincident points, symmetric and satisfies the triangle inequality.",
  "every dimension and every real points",
  "Universally quantified real inequalities.",
  "src/MuyGPyS/_src/gp/tensors/numpy.py:_l2", "src/MuyGPyS/_src/gp/tensors/numpy.py:_F2", "src/MuyGPyS/gp/deformation/metric.py")
p("The three deformations agree when all length scales are equal",
  "For a positive length scale, distance isotropy, difference isotropy and anisotropy with that length scale in every dimension produce the same scaled distances for both metrics, and an anisotropy whose length-scale count differs from the feature count is rejected.",
  "every difference tensor, every positive length scale, both metrics",
  "All reals, all shapes; l2 and F2 must scale differently.",
  "src/MuyGPyS/gp/deformation/isotropy.py", "src/MuyGPyS/gp/deformation/anisotropy.py", "src/MuyGPyS/gp/deformation/metric.py")
p("Kernel values are correlations",
  "RBF and every closed-form Matern kernel map a non-negative distance into (0, 1], take the value 1 exactly at distance 0, and strictly decrease with distance.",
  "every non-negative real distance",
  "Monotonicity and range over all reals.",
  "src/MuyGPyS/_src/gp/kernels/numpy.py", "src/MuyGPyS/gp/kernels/matern.py", "src/MuyGPyS/gp/kernels/rbf.py")
p("RBF equals the smooth limit of Matern and closed forms are only used when sound",
  "The RBF kernel on squared distances equals the Matern kernel with infinite smoothness on distances; the closed-form Matern functions are selected only when the smoothness is fixed at exactly 1/2, 3/2, 5/2 or infinity, so an overriding smoothness keyword is never silently ignored for an unfixed smoothness.",
  "every distance, every smoothness value and fixed/free status",
  "All reals; the selection logic must be right for each value, not the few tested.",
  "src/MuyGPyS/gp/kernels/matern.py:_set_matern_fn", "src/MuyGPyS/gp/kernels/rbf.py", "src/MuyGPyS/_src/gp/kernels/numpy.py:_matern_inf_fn")
p("Neighbourhood covariances are symmetric positive (semi)definite",
  "The kernel matrix of every neighbourhood is symmetric with unit diagonal; for RBF on squared distances and the closed-form Matern kernels on distances it is positive semidefinite, and positive definite if the neighbours are different points or positive homoscedastic noise is added, so the linear solves never fail.",
  "every number of neighbours, every point configuration (including repeated points), every length scale and noise > 0",
  "Positive definiteness for all point sets of all sizes.",
  "src/MuyGPyS/gp/kernels/rbf.py:RBF.__call__", "src/MuyGPyS/_src/gp/noise/numpy.py:_homoscedastic_perturb")
p("Noise models perturb exactly the diagonal",
  "Homoscedastic noise adds the noise value to each diagonal entry of each neighbourhood covariance and changes nothing else; heteroscedastic noise adds the per-neighbour value; shear noise adds twice the value to the first observable block and the value to the others; null noise changes nothing; tensors of unsupported rank are rejected.",
  "every kernel tensor of every size, every noise value",
  "All shapes, in particular the flattened multi-output layout.",
  "src/MuyGPyS/_src/gp/noise/numpy.py", "src/MuyGPyS/gp/noise/homoscedastic.py", "src/MuyGPyS/gp/noise/heteroscedastic.py", "src/MuyGPyS/gp/noise/null.py")
p("Noise variances are non-negative",
  "No accepted noise model has a negative noise variance, whether fixed or bounded, scalar or per-observation, and every noise model can be queried for being fixed and for its optimisation parameters.",
  "every construction arguments",
  "All real arguments.",
  "src/MuyGPyS/gp/noise/homoscedastic.py:HomoscedasticNoise.__init__", "src/MuyGPyS/gp/noise/heteroscedastic.py:HeteroscedasticNoise.__init__", "src/MuyGPyS/gp/noise/null.py:NullNoise")
p("Posterior mean is the kriging mean for every shape",
  "For every batch size, neighbour count and response count the posterior mean of element i and response c is (K_i^-1 k_i) . y_i[:, c], and the result has shape (batch,) or (batch, responses); a singular neighbourhood covariance is reported as an error, never a silent value.",
  "every batch size, neighbour count >= 1, response count >= 1, invertible kernel matrices",
  "Shape inference must be right for every combination of sizes, including coincidental equalities of sizes.",
  "src/MuyGPyS/_src/gp/muygps/numpy.py:_muygps_posterior_mean", "src/MuyGPyS/_src/gp/muygps/numpy.py:_find_matching_ndim", "src/MuyGPyS/gp/muygps.py:MuyGPS.posterior_mean")
p("Without noise the posterior interpolates the training data",
  "If the query coincides with one of its neighbours and the noise is zero, the posterior mean is exactly that neighbour's target and the posterior variance is zero.",
  "every neighbourhood with invertible covariance, every targets, every matching neighbour position",
  "An exact identity for all kernels and configurations.",
  "src/MuyGPyS/_src/gp/muygps/numpy.py:_muygps_posterior_mean", "src/MuyGPyS/_src/gp/muygps/numpy.py:_muygps_diagonal_variance", "src/MuyGPyS/gp/muygps.py:MuyGPS.posterior_mean")
p("Posterior mean is linear in the targets and blind to neighbour order",
  "The posterior mean is a linear function of the neighbour targets, and posterior mean and variance do not change when the neighbours of a query are listed in another order.",
  "every targets, coefficients and permutation",
  "Algebraic law over all inputs and permutations.",
  "src/MuyGPyS/_src/gp/muygps/numpy.py")
p("Batch elements do not influence each other",
  "Predicting a batch gives for each element the same mean and variance as predicting that element alone; predictions commute with reordering, splitting and concatenating batches.",
  "every batch and sub-selection of the batch",
  "All batch compositions.",
  "src/MuyGPyS/_src/gp/muygps/numpy.py", "src/MuyGPyS/gp/muygps.py:MuyGPS.posterior_variance")
p("Posterior variance is bounded by the prior variance",
  "For a positive semidefinite joint covariance and non-negative noise, the posterior variance lies between 0 and the prior variance scale * Kout.",
  "every neighbourhood size, every positive semidefinite joint covariance, every noise >= 0",
  "Inequalities for all positive semidefinite matrices.",
  "src/MuyGPyS/_src/gp/muygps/numpy.py:_muygps_diagonal_variance", "src/MuyGPyS/gp/muygps.py:MuyGPS.posterior_variance")
p("Posterior variance is monotone in noise and in information",
  "Increasing the noise never decreases the posterior variance, and enlarging the neighbour set never increases it.",
  "every positive definite neighbourhood covariance and every noise pair; every sub-neighbourhood",
  "Matrix monotonicity (Schur complement) for all sizes.",
  "src/MuyGPyS/_src/gp/muygps/numpy.py:_muygps_diagonal_variance", "src/MuyGPyS/_src/gp/noise/numpy.py:_homoscedastic_perturb")
p("The variance scale scales variances once and leaves means alone",
  "The posterior mean does not depend on the variance scale and the posterior variance is the unscaled variance multiplied by the scale exactly once, using the scale current at the time of the call.",
  "every model, scale and neighbourhood, every history of scale updates",
  "Histories of updates and all reals.",
  "src/MuyGPyS/gp/hyperparameter/scale.py:ScaleFn.scale_fn", "src/MuyGPyS/gp/muygps.py:MuyGPS.optimize_scale", "src/MuyGPyS/gp/variance.py")
p("Fast prediction equals regular prediction on the same neighbourhood",
  "Precomputing coefficients for each training neighbourhood and combining them with cross-covariances gives the regular posterior mean computed with that neighbourhood, in the documented shape.",
  "every batch size, neighbour count, response count and invertible kernel matrices",
  "Shape collapse happens only for particular sizes (squeeze).",
  "src/MuyGPyS/_src/gp/muygps/numpy.py:_muygps_fast_posterior_mean", "src/MuyGPyS/_src/gp/muygps/numpy.py:_muygps_fast_posterior_mean_precompute", "src/MuyGPyS/gp/muygps.py:MuyGPS.fast_coefficients")
p("Fast neighbourhood update puts each point first in its own neighbourhood once",
  "The updated neighbourhood of training point i is i followed by its nearest k-1 other neighbours: no repetitions, same width; and the end-to-end fast workflow uses the same neighbourhood for coefficients and cross-covariances.",
  "every duplicate-free neighbour index tensor",
  "All index tensors; misalignment changes predictions silently.",
  "src/MuyGPyS/_src/gp/tensors/numpy.py:_fast_nn_update", "src/MuyGPyS/examples/fast_posterior_mean.py", "src/MuyGPyS/gp/tensors.py:make_fast_predict_tensors")
p("Analytic variance scale follows its documented formula",
  "The analytic scale estimate is the average of y^T (K + noise)^-1 y / nn_count over the batch for every iteration count; it is non-negative, scales quadratically with the targets, inversely with the covariance, and does not depend on batch or neighbour order.",
  "every batch, neighbour count, iteration count, positive definite covariances and targets",
  "A limit statement over all iteration counts and reals.",
  "src/MuyGPyS/gp/hyperparameter/scale.py:AnalyticScale.get_opt_fn", "src/MuyGPyS/_src/optimize/scale/numpy.py")
p("Downsampled scale estimates are sound",
  "The downsampled scale optimiser rejects neighbourhoods not larger than the sample, otherwise returns a value between the smallest and largest of the per-sample estimates whatever samples are drawn; each estimate is computed from a principal sub-neighbourhood with matching targets and never exceeds the full quadratic form.",
  "every random index draw, iteration count, down count and positive definite covariances",
  "Random draws are unbounded.",
  "src/MuyGPyS/gp/hyperparameter/scale.py:DownSampleScale.get_opt_fn")
p("Regression losses vanish exactly at perfect prediction",
  "Mean squared error and pseudo-Huber loss are non-negative, symmetric in prediction and target, and zero exactly when predictions equal targets; the pseudo-Huber loss is bounded by half the sum of squares and by the boundary-scaled absolute error.",
  "every prediction and target tensors, every positive boundary scale",
  "Real inequalities for all sizes.",
  "src/MuyGPyS/_src/optimize/loss/numpy.py:_mse_fn", "src/MuyGPyS/_src/optimize/loss/numpy.py:_pseudo_huber_fn")
p("Leave-one-out likelihood is the Gaussian log-likelihood",
  "The lool loss equals, up to a constant depending only on the batch size, minus twice the log of the product of Gaussian densities with the predicted means and scaled variances; for fixed predictions it is minimised over the scale exactly at the mean squared standardised residual.",
  "every predictions, targets, positive variances and scales",
  "Optimality over all scales.",
  "src/MuyGPyS/_src/optimize/loss/numpy.py:_lool_fn", "src/MuyGPyS/_src/optimize/loss/numpy.py:_lool_fn_unscaled")
p("Pseudo-Huber likelihood is a robust version of lool",
  "The looph loss never exceeds lool, is symmetric and increasing in the absolute residual, and grows at most linearly in it.",
  "every predictions, targets, positive variances, scales and boundary scale",
  "Real inequalities for all inputs.",
  "src/MuyGPyS/_src/optimize/loss/numpy.py:_looph_fn")
p("Cross-entropy loss is well behaved and backend independent",
  "The classification loss is non-negative, invariant under adding a constant to all the predictions of a sample, depends on targets only through which entries are positive, and has the same value in every backend.",
  "every predictions and one-hot targets",
  "All real inputs and all class counts; backends agree only for special inputs.",
  "src/MuyGPyS/_src/optimize/loss/numpy.py:_cross_entropy_fn", "src/MuyGPyS/_src/optimize/loss/torch.py:_cross_entropy_fn", "src/MuyGPyS/_src/optimize/loss/jax.py:_cross_entropy_fn")
p("Multivariate lool adds each quadratic form and log-determinant once",
  "For multi-output predictions the lool loss is the sum over the batch of the quadratic form plus the log-determinant of the scaled covariance.",
  "every batch and positive definite covariances",
  "The value is plausible for any single test; only the formula for all inputs shows it wrong.",
  "src/MuyGPyS/_src/optimize/loss/numpy.py:_lool_fn_unscaled")
p("The optimisation objective is minus the loss of the trial model",
  "For every trial hyperparameters, the objective handed to the optimiser equals minus the loss of the predictions a model holding those hyperparameters would make, including the variance scale that model would estimate.",
  "every trial hyperparameter values, every loss, model and data",
  "All trial points; a wrong objective still optimises something.",
  "src/MuyGPyS/optimize/objective.py", "src/MuyGPyS/optimize/loss.py:make_var_predict_and_loss_fn", "src/MuyGPyS/gp/hyperparameter/scale.py:AnalyticScale.get_opt_fn")
p("Neighbour queries exclude the query point itself",
  "Batch neighbour queries return for each batch point k distinct training indices, none of them the point itself, nearest first; plain queries return k indices; indices and distances agree.",
  "every training set (including repeated points) and every batch",
  "Fails only for coincident points; all training sets must be considered.",
  "src/MuyGPyS/neighbors.py:NN_Wrapper.get_batch_nns", "src/MuyGPyS/neighbors.py:NN_Wrapper.get_nns")
p("Batches are duplicate-free subsets of the training set",
  "A sampled batch has min(batch_count, train_count) distinct indices below train_count, and its neighbour tensor rows belong to the corresponding batch indices.",
  "every training size, batch size and random draw",
  "All random draws and sizes.",
  "src/MuyGPyS/optimize/batch.py:sample_batch")
p("Filtered and balanced batches keep their promises",
  "A filtered batch contains exactly the training points whose neighbours do not all share one label; a balanced batch contains equally many distinct points of each class, all of them from the filtered set, and at most batch_count in total.",
  "every label vector, neighbour tensors, batch count and random draw",
  "All labellings and draws; documented counts must hold for every class distribution.",
  "src/MuyGPyS/optimize/batch.py:full_filtered_batch", "src/MuyGPyS/optimize/batch.py:get_balanced_batch", "src/MuyGPyS/optimize/batch.py:sample_balanced_batch")
p("Constant neighbourhoods are classified by their common label and only those",
  "In classification, a test point whose neighbours all carry the same label receives that label's encoding, and every other test point receives the posterior mean.",
  "every label encoding with any number of classes and every neighbour tensor",
  "Fails only from three classes on with particular mixtures.",
  "src/MuyGPyS/examples/classify.py:classify_any", "src/MuyGPyS/examples/two_class_classify_uq.py:classify_two_class_uq")
p("Two-class uncertainty masks count what they say",
  "For every objective the mask flags the predictions whose confidence interval straddles the decision threshold, and the reported counts and accuracies are the size of the ambiguous set and the accuracies on the ambiguous, unambiguous and whole test set.",
  "every predictions, variances, labels and cutoffs",
  "All real inputs.",
  "src/MuyGPyS/examples/two_class_classify_uq.py:make_masks", "src/MuyGPyS/examples/two_class_classify_uq.py:do_uq")
p("Multi-output models treat outputs independently",
  "Posterior mean and variance of output c of a multi-output model equal those of the c-th univariate model alone, and changing one output's hyperparameters or targets never changes another output's predictions.",
  "every number of outputs, every per-output models and data",
  "All combinations of per-output models.",
  "src/MuyGPyS/gp/multivariate_muygps.py:MultivariateMuyGPS.posterior_mean", "src/MuyGPyS/gp/multivariate_muygps.py:MultivariateMuyGPS.posterior_variance")
p("Multi-output fast prediction equals per-output fast prediction",
  "The fast coefficients and fast posterior mean of a multi-output model equal those of its univariate models.",
  "every number of outputs, models and data",
  "An assignment dropped by value semantics gives zeros for every input; must be stated for all.",
  "src/MuyGPyS/gp/multivariate_muygps.py:MultivariateMuyGPS.fast_coefficients", "src/MuyGPyS/gp/multivariate_muygps.py:MultivariateMuyGPS.fast_posterior_mean", "src/MuyGPyS/_src/math/numpy.py:assign")
p("Shear covariance blocks are the covariances of Gaussian derivatives",
  "The convergence/shear kernel blocks are the fourth-order derivative combinations of the Gaussian kernel, the full covariance is symmetric under exchanging points and observables, the reduced (two-in) kernels are sub-blocks of the full one, and crosswise and pairwise inputs are told apart for every batch and neighbour count.",
  "every difference vector, length scale, batch size and neighbour count",
  "Analytic identities for all reals; shape ambiguity only at coinciding sizes.",
  "src/MuyGPyS/_src/gp/kernels/shear/numpy.py", "src/MuyGPyS/gp/kernels/experimental/shear.py")
p("Configuration scopes restore the previous configuration",
  "After any well-nested sequence of configuration updates and scoped overrides, also when the body raises, each option reads as it did before the scope, including derived global state; invalid enum values are rejected.",
  "every nesting and sequence of updates and scopes",
  "All histories.",
  "src/MuyGPyS/_src/config.py", "src/MuyGPyS/_src/jaxconfig.py")
p("Model equality is an equivalence distinguishing different models",
  "Comparing models is reflexive, symmetric and distinguishes models with different kernels or hyperparameters.",
  "every pair of models",
  "All pairs.",
  "src/MuyGPyS/gp/muygps.py:MuyGPS.__eq__")
p("Models constructed independently do not share state",
  "Changing the hyperparameters of one model never changes a model constructed by another constructor call.",
  "every sequence of constructions and mutations",
  "Aliasing appears only after particular histories (default arguments).",
  "src/MuyGPyS/gp/kernels/matern.py:Matern.__init__", "src/MuyGPyS/gp/kernels/rbf.py:RBF.__init__", "src/MuyGPyS/gp/muygps.py:MuyGPS.__init__")
p("Hierarchical parameters interpolate their knots",
  "A knot-based hyperparameter evaluated at its knots returns the knot values, is linear in the knot values, and mismatched knot feature/value counts are rejected.",
  "every knots with invertible knot covariance",
  "Identity for all knot sets.",
  "src/MuyGPyS/gp/hyperparameter/experimental/hierarchical.py")
p("Backends compute the same functions",
  "The numpy, torch and jax implementations of noise, scale, posterior, loss, distance and kernel functions agree on every input all of them accept.",
  "every input accepted by both backends",
  "Only sampled inputs can be compared by running; some backends cannot be run in CI.",
  "src/MuyGPyS/_src/gp", "src/MuyGPyS/_src/optimize")
p("Workflow composition uses the right neighbourhoods",
  "Regression and classification from indices yield for each test point the posterior computed from the training features and targets of precisely its listed neighbours.",
  "every data and index tensors",
  "All index tensors.",
  "src/MuyGPyS/examples/from_indices.py", "src/MuyGPyS/examples/regress.py:regress_any", "src/MuyGPyS/examples/classify.py:classify_any")
p("Mini-batch optimisation performs the promised evaluations",
  "Mini-batch optimisation with E epochs probes the objective the documented number of times, carries the best point of each epoch into the next, and returns the best point seen.",
  "every epoch count, optimiser behaviour and keyword arguments",
  "All optimiser behaviours.",
  "src/MuyGPyS/optimize/experimental/chassis.py")
p("Bayesian optimisation never returns something worse than it started with",
  "Optimising a model by Bayesian optimisation evaluates the objective at the model's initial hyperparameters, at init_points random and n_iter suggested points (5 and 20 unless given), and answers with the best of all of them, so the answer never scores worse than the initial hyperparameters.",
  "every objective, initial point, random draws, optimiser suggestions and keyword arguments",
  "The optimiser's suggestions and random draws are arbitrary.",
  "src/MuyGPyS/_src/optimize/chassis/numpy.py:_bayes_opt_optimize")
p("Deep kernel training refreshes its neighbourhoods",
  "Training a deep kernel for T iterations with update_frequency u recomputes the neighbours of the batch in the current embedding every u iterations and the following iterations use them (a point not being its own neighbour), every documented loss is available, and the returned lookup indexes the embedding of the returned model in evaluation mode.",
  "every embedding, optimiser, data, iteration count and update frequency",
  "The embedding and the optimiser are arbitrary; a run cannot show which neighbours every gradient step used.",
  "src/MuyGPyS/examples/muygps_torch.py:train_deep_kernel_muygps", "src/MuyGPyS/examples/muygps_torch.py:update_nearest_neighbors", "src/MuyGPyS/torch/muygps_layer.py:MuyGPs_layer")
p("Deep kernel training respects the hyperparameter declarations",
  "Training a deep kernel leaves hyperparameters declared fixed as they are, keeps the others inside their bounds, and changes nothing else of the model.",
  "every embedding, optimiser, data and training run",
  "All optimiser behaviours.",
  "src/MuyGPyS/torch/muygps_layer.py:MuyGPs_layer", "src/MuyGPyS/examples/muygps_torch.py:train_deep_kernel_muygps")
p("Deep kernel predictions are kriging in the embedded space",
  "The layer's forward pass, and predict_single_model with a trained model and its lookup, return the kriging means and variances of the embedded points from their (nearest) neighbours in the embedded training set, with the trained hyperparameters.",
  "every embedding, trained parameters, training and test data",
  "All embeddings and data.",
  "src/MuyGPyS/torch/muygps_layer.py:MuyGPs_layer.forward", "src/MuyGPyS/examples/muygps_torch.py:predict_single_model")
p("An optimised model scores what the optimiser saw",
  "The model returned by optimize_from_tensors holds the optimiser's answer: its score (minus the loss of its own predictions on the batch) is exactly the objective value of that answer, its free hyperparameters are within bounds, fixed ones and the scale are untouched; with Bayesian optimisation it never scores worse than the model passed in.",
  "every model, loss, batch, optimiser answer, sequence of random and suggested points",
  "Every optimiser behaviour and every combination of fixed and free hyperparameters.",
  "src/MuyGPyS/optimize/chassis.py:optimize_from_tensors", "src/MuyGPyS/_src/optimize/chassis/numpy.py")
p("Training and prediction in one call do what their parts promise",
  "make_regressor, make_classifier, do_regress and do_classify train the given model on a batch of different training points and their neighbours, estimate the variance scale (regression) from that batch, leave a model without free hyperparameters as it is, predict with the model they return, never return a model scoring worse than the one passed in, and do not fail on valid data.",
  "every model, optimiser, loss, training set, batch draw and test set",
  "Every optimiser behaviour, data set and random batch; runs show single cases.",
  "src/MuyGPyS/examples/regress.py:make_regressor", "src/MuyGPyS/examples/regress.py:do_regress", "src/MuyGPyS/examples/classify.py:make_classifier", "src/MuyGPyS/examples/classify.py:do_classify")
p("Every Matern kernel is the documented Matern correlation",
  "A Matern kernel of any positive smoothness returns the documented correlation 2^(1-nu)/Gamma(nu) (sqrt(2 nu) d)^nu K_nu(sqrt(2 nu) d): it is 1 for a point with itself, strictly decreasing with values in (0, 1), has the closed forms for nu = 1/2, 3/2, 5/2, tends to the RBF kernel as nu grows, and gives positive (semi)definite covariances.",
  "every smoothness, length scale, data set and neighbourhood",
  "A statement about a special function at all real arguments.",
  "src/MuyGPyS/_src/gp/kernels/numpy.py:_matern_gen_fn", "src/MuyGPyS/gp/kernels/matern.py:Matern")
p("Calls leave the caller's arrays as they are",
  "Computing difference tensors, kernels, noise perturbations, posterior means, variances, fast coefficients and fast means, or regressing from indices, changes no array the caller holds, whether the call returns or raises, and returns arrays that share no memory with the arguments or with each other (NullNoise.perturb, documented to return its argument, excepted). A program that mixes such calls with in-place updates of its own arrays computes what it would if arrays were immutable values.",
  "every sequence of calls and in-place updates, every argument (also the same array twice), every model",
  "All programs: aliasing shows only in particular interleavings of calls and updates.",
  "src/MuyGPyS/_src/gp/kernels/numpy.py:_matern_gen_fn", "src/MuyGPyS/_src/gp/noise/numpy.py:_heteroscedastic_perturb", "src/MuyGPyS/_src/gp/muygps/numpy.py", "src/MuyGPyS/examples/from_indices.py:regress_from_indices")
p("One model per response: each is trained and predicts as it would alone",
  "make_multivariate_regressor, make_multivariate_classifier, do_regress and do_classify with a list or tuple of models require one model per response, train every model with free hyperparameters exactly as it would be trained alone on its own response column (same batch), estimate each variance scale from its own column, return fixed models unchanged, and predict column c with model c: its kriging mean and its scaled kriging variance from the nearest training points.",
  "every list of models, optimiser, data set, batch draw and test set",
  "Interaction between models: every combination of fixed and free models, scales and responses.",
  "src/MuyGPyS/examples/regress.py:make_multivariate_regressor", "src/MuyGPyS/examples/regress.py:do_regress", "src/MuyGPyS/examples/classify.py:make_multivariate_classifier", "src/MuyGPyS/examples/classify.py:do_classify", "src/MuyGPyS/gp/multivariate_muygps.py:MultivariateMuyGPS")
p("The fast workflow predicts from the neighbourhood of the closest training point",
  "do_fast_posterior_mean and fast_posterior_mean_any train as do_regress does, return the coefficients of every training point's own neighbourhood (the point and its nn_count - 1 nearest others), and predict each test point by the kriging mean of the neighbourhood of its closest training point: noise-free models reproduce a training response at its point, predictions are linear in the responses, and with one model per response column c is predicted by model c.",
  "every model or list of models, training and test data, neighbour count and exact nearest-neighbour index",
  "All data sets and models: which neighbourhood a prediction uses shows only in its value.",
  "src/MuyGPyS/examples/fast_posterior_mean.py:do_fast_posterior_mean", "src/MuyGPyS/examples/fast_posterior_mean.py:fast_posterior_mean_any", "src/MuyGPyS/examples/fast_posterior_mean.py:make_fast_multivariate_regressor", "src/MuyGPyS/examples/from_indices.py:fast_posterior_mean_from_indices")
p("Predictions do not depend on how the data is presented",
  "Predicting from the same data listed in another order, in shifted, rotated or rescaled coordinates (with the length scale rescaled), with the features in another order, or with one feature and its length scale in another unit, gives every test point the same mean and variance.",
  "every model, training and test set, permutation, shift, isometry and scale factor, and every exact nearest-neighbour index",
  "All data sets and transformations at once.",
  "src/MuyGPyS/examples/regress.py:regress_any", "src/MuyGPyS/neighbors.py:NN_Wrapper", "src/MuyGPyS/gp/deformation/isotropy.py:Isotropy", "src/MuyGPyS/gp/deformation/anisotropy.py:Anisotropy")
p("The uncertainty-quantified classifier flags the ambiguous points",
  "do_classify_uq trains as make_classifier does, predicts as classification does (common label of unanimous neighbours, kriging mean of the labels otherwise), chooses one confidence cutoff per objective from the error rates on a balanced calibration batch, and returns one mask per objective that flags the test points whose confidence interval contains the class boundary: points with unanimous neighbours are never flagged, a point with mixed neighbours and equal scores for both classes always is, the flagged sets of any two objectives are nested, and on valid data the call does not fail.",
  "every model, optimiser, training and test set, calibration batch, objective and exact nearest-neighbour index",
  "All data sets, optimiser answers and batch draws; a run shows the masks of one.",
  "src/MuyGPyS/examples/two_class_classify_uq.py:do_classify_uq", "src/MuyGPyS/examples/two_class_classify_uq.py:train_two_class_interval", "src/MuyGPyS/examples/two_class_classify_uq.py:make_masks")
p("Deep kernels with one model per response predict each response with its own model",
  "With a MultivariateMuyGPs_layer, the forward pass and predict_model return for response c the kriging mean and variance of model c in the embedded space, as a module with that model alone would; training optimises the embedding and the length scales of the models, with the refreshed neighbours, for every documented loss.",
  "every embedding, optimiser, list of models, data set and training run",
  "All embeddings, optimisers and models; a run cannot show that no hyperparameter ever moves.",
  "src/MuyGPyS/torch/multivariate_muygps_layer.py:MultivariateMuyGPs_layer", "src/MuyGPyS/examples/muygps_torch.py:predict_multiple_model", "src/MuyGPyS/examples/muygps_torch.py:predict_model", "src/MuyGPyS/examples/muygps_torch.py:train_deep_kernel_muygps")
p("Far from the training data predictions revert to the prior",
  "For every tolerance there is a distance such that every prediction of regress_any at a test point farther than that from all training points has a mean within the tolerance of zero and a variance within the tolerance of the variance scale, whatever the test points, their number and the neighbours chosen.",
  "every RBF or Matern kernel, length scales, noise, scale, training set, tolerance, test batch and exact nearest-neighbour index",
  "A limit statement over unbounded distances and all test sets.",
  "src/MuyGPyS/examples/regress.py:regress_any", "src/MuyGPyS/gp/muygps.py:MuyGPS", "src/MuyGPyS/gp/kernels/rbf.py:RBF", "src/MuyGPyS/gp/kernels/matern.py:Matern", "src/MuyGPyS/_src/gp/kernels/numpy.py:_matern_gen_fn")
p("Predictions depend continuously on the test point",
  "Test points that are close enough to each other, in the same batch or in different ones, are predicted nearly the same mean and variance.",
  "every kernel, noise, training set, test point, tolerance, pair of test batches and exact nearest-neighbour index",
  "A limit statement over all pairs of nearby points.",
  "src/MuyGPyS/examples/regress.py:regress_any", "src/MuyGPyS/neighbors.py:NN_Wrapper", "src/MuyGPyS/_src/gp/kernels/numpy.py:_matern_gen_fn")
p("Predictions are the Bayesian posterior",
  "If the responses of the training points are values of a centred Gaussian process with the model's kernel and scale plus independent Gaussian noise of scale times the model's noise variance, then for every test point the conditional law of the process there, given the responses of the point's nearest training points, is the normal law with the mean and variance regress_any returns; the prediction error is independent of those responses and has exactly the reported variance, and no other rule computed from the same responses has a smaller mean squared error.",
  "every kernel, metric, length scales, scale, noise level, training and test set, neighbour count, probability space and exact nearest-neighbour index",
  "A statement about probability laws; simulation can only estimate them.",
  "src/MuyGPyS/examples/regress.py:regress_any", "src/MuyGPyS/gp/muygps.py:MuyGPS", "src/MuyGPyS/_src/gp/muygps/numpy.py:_muygps_posterior_mean", "src/MuyGPyS/_src/gp/muygps/numpy.py:_muygps_diagonal_variance")
p("The estimated variance scale is unbiased",
  "If the responses come from a Gaussian process with the model's kernel and noise level and an unknown variance scale, then on every sampled batch optimize_scale with an analytic scale almost surely succeeds, and the mean of the scale it sets is the true one.",
  "every model, true scale, training set, batch size, batch draw, neighbour count and probability space",
  "An expectation over all responses; overlapping neighbourhoods make the summands dependent.",
  "src/MuyGPyS/gp/muygps.py:MuyGPS.optimize_scale", "src/MuyGPyS/gp/hyperparameter/scale.py:AnalyticScale", "src/MuyGPyS/_src/optimize/scale/numpy.py:_analytic_scale_optim", "src/MuyGPyS/optimize/batch.py:sample_batch")
p("On average the true hyperparameters score best",
  "If the responses come from one of the models an optimiser may choose, the expected value of the training objective (minus the mean squared error, the pseudo-Huber loss or the leave-one-out likelihood loss on a sampled batch) is largest at that model.",
  "every pair of models of the same kind, training set, batch size and draw, neighbour count, loss and probability space",
  "An expectation over all responses, compared between all models.",
  "src/MuyGPyS/optimize/objective.py:make_loo_crossval_fn", "src/MuyGPyS/optimize/loss.py", "src/MuyGPyS/_src/optimize/loss/numpy.py", "src/MuyGPyS/optimize/batch.py:sample_batch")
p("The samplers split their points as asked and reproducibly",
  "A sampler of n points with training ratio r hands out int(n r) training points and all the other points for testing: every point is in exactly one of the two sets, and the features handed out are the points of the set. Two samplers with the same arguments and seed make the same split, and the default arguments work.",
  "every number of points, ratio, shuffle and sequence of random choices, in one and two dimensions",
  "Ranges over every permutation and every sequence of draws.",
  "src/MuyGPyS/_test/sampler.py:SamplerBase", "src/MuyGPyS/_test/sampler.py:UnivariateSampler", "src/MuyGPyS/_test/sampler.py:UnivariateSampler2D")
p("The samplers draw from the Gaussian process they name",
  "The responses of a sampler are jointly Gaussian and centred, with the covariances of its kernel at the features handed out, the variance of its noise parameter at every point, and the variance of its measurement_noise parameter in addition at the training points.",
  "every number of points, ratio, split, kernel, length scales, noise and measurement noise, and every source of independent standard normal numbers",
  "A statement about a joint probability law in any number of dimensions.",
  "src/MuyGPyS/_test/sampler.py:UnivariateSampler.sample", "src/MuyGPyS/_test/sampler.py:UnivariateSampler2D.sample", "src/MuyGPyS/_test/gp.py:benchmark_sample", "src/MuyGPyS/_test/gp.py:benchmark_prepare_cholK", "src/MuyGPyS/_test/gp.py:BenchmarkGP")
p("A model with the sampler's parameters predicts the sampler's data",
  "A model with the kernel and noise parameters of the sampler predicts, for every test point, the conditional law of the sampler's test response given the training responses of the nearest neighbours; in particular the reported variances are those of the actual errors.",
  "every sampler, split, kernel, noise, neighbour count, exact nearest-neighbour index and source of independent standard normal numbers",
  "A statement about conditional laws, for the whole pipeline from sampling to prediction.",
  "src/MuyGPyS/_test/sampler.py:UnivariateSampler", "src/MuyGPyS/_test/sampler.py:UnivariateSampler2D", "src/MuyGPyS/examples/regress.py:regress_any", "docs/examples/univariate_regression_tutorial.ipynb")
p("A model distributes its tensors over the ranks",
  "In the MPI backend, make_predict_tensors and make_train_tensors hand every rank its own chunk of the tensors a serial run would return: whatever the schedule, gathering the chunks of each tensor in rank order gives the serial tensor, every message is received, and the call ends even if sends do not buffer.",
  "every number of ranks, batch size, metric, number of further tensors and schedule",
  "Ranges over every interleaving of sends and receives on any number of ranks.",
  "src/MuyGPyS/gp/muygps.py:MuyGPS.make_predict_tensors", "src/MuyGPyS/gp/muygps.py:MuyGPS.make_train_tensors", "src/MuyGPyS/gp/multivariate_muygps.py:MultivariateMuyGPS.make_predict_tensors", "src/MuyGPyS/_src/gp/tensors/mpi.py", "src/MuyGPyS/gp/deformation/metric.py", "src/MuyGPyS/_src/mpi_utils.py:mpi_chunk")
p("Scatters in sequence do not mix",
  "When every rank runs the same program of scatters, each rank receives for every call and every tensor its own chunk, however far some ranks run ahead of others; when all ranks are done no message is left.",
  "every number of ranks, sequence of scatters of any tensors, and schedule",
  "Ranges over every interleaving of a program of any length.",
  "src/MuyGPyS/_src/mpi_utils.py:_chunk_tensor", "src/MuyGPyS/_src/mpi_utils.py:_big_scatter", "src/MuyGPyS/_src/mpi_utils.py:_consistent_chunk_tensor")
p("Several responses are predicted as each would be alone",
  "With responses of shape (train_count, response_count), regress_any returns for every response the means it would return for that response alone, and the variances it would return for any of them; it fails only where it would fail for each response alone, with the same exception. So whatever holds of single-response predictions (that they are posteriors, C71) holds for every column.",
  "every kernel, noise, training set, test set, neighbour count, response table and number of responses",
  "Ranges over all shapes and all values; the number of responses interacts with the number of neighbours.",
  "src/MuyGPyS/_src/gp/muygps/numpy.py:_muygps_posterior_mean", "src/MuyGPyS/examples/regress.py:regress_any", "src/MuyGPyS/examples/from_indices.py:regress_from_indices")
p("A call that raises leaves the model as it was",
  "When set_params, an assignment to a hyperparameter or to the noise, or optimize_scale raises an exception, the model is unchanged, so that a user who catches the exception can go on; a history of calls some of which raised ends with the model the successful calls alone produce.",
  "every model, argument and history of calls, with every pattern of exceptions",
  "Ranges over every history and every point at which a call can fail.",
  "src/MuyGPyS/gp/kernels/kernel_fn.py:KernelFn.set_params", "src/MuyGPyS/gp/muygps.py:MuyGPS.optimize_scale", "src/MuyGPyS/gp/multivariate_muygps.py:MultivariateMuyGPS.optimize_scale", "src/MuyGPyS/gp/hyperparameter/scalar.py:Parameter._set_val", "src/MuyGPyS/gp/hyperparameter/scale.py:ScaleFn._set")
p("A changed hyperparameter takes effect",
  "After any history of in-place changes, kernel evaluations, predictions and scale estimates are those of a model newly constructed with the hyperparameters the model reports.",
  "every model and history of changes",
  "Ranges over every history; the functions a model calls are bound at some earlier point of the history.",
  "src/MuyGPyS/gp/kernels/kernel_fn.py:KernelFn.set_params", "src/MuyGPyS/gp/kernels/matern.py:Matern._make", "src/MuyGPyS/gp/kernels/matern.py:_set_matern_fn", "src/MuyGPyS/gp/muygps.py:MuyGPS._make", "src/MuyGPyS/gp/muygps.py:MuyGPS.optimize_scale")
p("Nonstationary models are locally stationary",
  "A model whose isotropic length scale is interpolated from knots predicts at every point (batch features supplied) exactly the mean and variance of the ordinary model with the length scale of that point; with positive knot values the variances lie between zero and the variance scale; a trial evaluation during optimisation scores the model holding the trial knot values; the library's own workflows accept such models.",
  "every kernel, set of knots, knot values, data set, batch and neighbourhood",
  "Ranges over all real knots, values and points; interpolated values are computed by solving linear systems.",
  "src/MuyGPyS/gp/hyperparameter/experimental/hierarchical.py:NamedHierarchicalParameter", "src/MuyGPyS/gp/deformation/isotropy.py:Isotropy", "src/MuyGPyS/gp/tensors.py:batch_features_tensor", "src/MuyGPyS/optimize/objective.py:make_loo_crossval_fn", "src/MuyGPyS/examples/from_indices.py:tensors_from_indices")
p("Predictions do not depend on the unit of the responses",
  "Training and predicting with all responses multiplied by a nonzero constant c gives c times the means and c squared times the variances: the objective function changes by a positive factor and a constant only (with the pseudo-Huber boundary scale in the same unit), so the same candidates win, the estimated variance scale is c squared times the one before, and no call fails that did not fail before.",
  "every c, model, data set, loss, optimiser history, neighbour count and test set",
  "Ranges over all data and all units, through training and prediction.",
  "src/MuyGPyS/examples/regress.py:do_regress", "src/MuyGPyS/optimize/chassis.py:Bayes_optimize", "src/MuyGPyS/optimize/loss.py:LossFn", "src/MuyGPyS/gp/hyperparameter/scale.py:AnalyticScale", "src/MuyGPyS/gp/hyperparameter/scale.py:DownSampleScale")
p("More information never increases the reported uncertainty",
  "Using more neighbours, lowering the noise variance, or adding training points never increases the variance regress_any reports for any test point, whatever the responses.",
  "every kernel, training set, additional points, neighbour counts, noise levels, responses and test set",
  "Ranges over all real data sets and sizes; a statement about inverses of matrices of any size.",
  "src/MuyGPyS/examples/regress.py:regress_any", "src/MuyGPyS/neighbors.py:NN_Wrapper.get_nns", "src/MuyGPyS/_src/gp/muygps/numpy.py:_muygps_diagonal_variance")
p("One observation moves a prediction by a bounded amount",
  "With noise variance tau > 0, changing the training responses in any way leaves all variances of regress_any as they were and moves each mean by at most the Euclidean norm of the changes divided by 2 sqrt(tau), where only the changes at training points that can be among the nn_count nearest ones count; in particular one wrong response d moves no prediction by more than |d| / (2 sqrt(tau)), and predictions far from it not at all.",
  "every kernel, data set, neighbour count, noise level, change of the responses and test set",
  "An inequality for all real data, kernels and sizes.",
  "src/MuyGPyS/examples/regress.py:regress_any", "src/MuyGPyS/_src/gp/muygps/numpy.py:_muygps_posterior_mean", "src/MuyGPyS/_src/gp/noise/numpy.py:_homoscedastic_perturb")
p("The names of the classes do not matter",
  "Renaming the classes, that is permuting the columns of the encoded labels, permutes the scores classify_any returns in the same way; so the predicted class of every test point is the renamed one.",
  "every permutation of every number of classes, kernel, training set and test set",
  "Ranges over all permutations and all data.",
  "src/MuyGPyS/examples/classify.py:classify_any")
p("Shear models work in the library's workflows",
  "Prediction (regress_from_indices) and training (make_train_tensors, optimize, optimize_scale) with a ShearKernel or ShearKernel2in3out model give what kriging with the covariance of the derivatives of the potential gives: means and covariances of convergence and shears at the queries, the leave-one-out loss of those predictions as objective, and the scale estimate of the observed quantities.",
  "every length scale, noise level, survey, neighbour table, batch and trial value",
  "Ranges over all real data and table sizes; the existing tests reorder the targets by hand and compare only two implementations.",
  "src/MuyGPyS/examples/from_indices.py:regress_from_indices", "src/MuyGPyS/gp/kernels/experimental/shear.py:ShearKernel", "src/MuyGPyS/optimize/objective.py:make_loo_crossval_fn", "src/MuyGPyS/gp/hyperparameter/scale.py:AnalyticScale")
p("An observation's measurement noise stays with the observation",
  "With HeteroscedasticNoise, a prediction uses for every neighbour of the test point the measurement noise of that very observation, however the test points are ordered or counted, and the same model can be trained and used to predict.",
  "all noise-free or noisy training sets, all measurement-noise arrays, all test sets, orders and sizes, all kernels and exact indices",
  "Tests build the noise tensor for the very batch they evaluate; that the noise follows the observation for every list of test points is a statement about all of them.",
  "src/MuyGPyS/gp/noise/heteroscedastic.py:HeteroscedasticNoise", "src/MuyGPyS/_src/gp/noise/numpy.py:_heteroscedastic_perturb", "src/MuyGPyS/gp/tensors.py:make_heteroscedastic_tensor", "src/MuyGPyS/examples/regress.py:regress_any,do_regress,make_regressor", "src/MuyGPyS/examples/fast_posterior_mean.py:make_fast_regressor")
p("With all training points as neighbours the model is the exact Gaussian process",
  "When nn_count equals the number of training points, regress_any returns exactly the predictions of ordinary Gaussian process regression with all training data, whatever the index, its metric and its order of equidistant points; when nn_count is one less, the training objective is exact leave-one-out cross-validation of that Gaussian process (Rasmussen and Williams 5.12).",
  "all training sets, responses, test sets, kernels, noise levels (also per observation), exact indices and batches",
  "Tests compare with a dense Gaussian process on a few random data sets; equality for every data set and every neighbour order is a theorem of linear algebra about the code.",
  "src/MuyGPyS/examples/regress.py:regress_any", "src/MuyGPyS/gp/muygps.py:MuyGPS", "src/MuyGPyS/_src/gp/muygps/numpy.py:_muygps_posterior_mean,_muygps_diagonal_variance", "src/MuyGPyS/optimize/loss.py:mse_fn,lool_fn,pseudo_huber_fn", "src/MuyGPyS/optimize/batch.py:sample_batch", "src/MuyGPyS/neighbors.py:NN_Wrapper.get_nns")
p("A leave-one-out prediction does not use the response it is compared with",
  "During training, the prediction for a batch element does not depend on that element's own response: changing it changes the target of the loss but not the prediction, so the objective measures prediction of unseen data.",
  "all training sets, responses, batches, kernels, noise models and exact indices",
  "A leak changes the objective only slightly and training still converges; that no data set, batch or tie order leaks is a statement about all of them.",
  "src/MuyGPyS/optimize/batch.py:sample_batch", "src/MuyGPyS/neighbors.py:NN_Wrapper.get_batch_nns", "src/MuyGPyS/gp/tensors.py:make_train_tensors", "src/MuyGPyS/gp/muygps.py:MuyGPS.posterior_mean")
p("Prediction intervals have their nominal coverage",
  "If the data come from the Gaussian process the model describes, the interval of z predicted standard deviations around a predicted mean contains the true value with the probability that a standard normal variable lies within z of 0, whatever the responses of the neighbours turn out to be, and the expected number of covered test points is that probability times their number.",
  "all training sets, test points, kernels, scales, noise models, exact indices, interval widths and all events about the observed responses",
  "A test can estimate the coverage of one data set up to sampling error; exact coverage for every model, data set and width is a theorem.",
  "src/MuyGPyS/examples/regress.py:regress_any", "src/MuyGPyS/gp/muygps.py:MuyGPS.posterior_mean,MuyGPS.posterior_variance", "src/MuyGPyS/_test/sampler.py:print_results", "docs/examples/univariate_regression_tutorial.ipynb")
p("A prediction is a function of the test point",
  "What regress_any and classify_any return for a test point depends only on that point, the model and the training data: the same test points can be predicted in one call or in several, in any order, with some left out or repeated, and every one of them gets the same mean and variance (or class row) each time.",
  "all models, indices, training data and all pairs of tables of test points of any sizes",
  "Batch effects (broadcasting, squeezing, positional noise) appear only for particular sizes and neighbourhoods; independence of the rest of the table is a statement about all pairs of tables.",
  "src/MuyGPyS/examples/regress.py:regress_any", "src/MuyGPyS/examples/classify.py:classify_any", "src/MuyGPyS/neighbors.py:NN_Wrapper.get_nns", "src/MuyGPyS/_src/gp/muygps/numpy.py:_muygps_posterior_mean,_muygps_diagonal_variance")
p("Training data farther away than the neighbours has no influence",
  "A prediction uses the nn_count nearest training points of the test point and nothing else: changing the responses of other training points, moving them while they stay farther away, removing them, appending farther ones or reordering the data leaves the predicted mean and variance exactly as they were.",
  "all models with one noise level, indices, test tables and all pairs of training sets that agree closer to the test point than a radius containing exactly nn_count points",
  "Tests use one training set; independence of arbitrary changes far away is a statement about all pairs of training sets.",
  "src/MuyGPyS/examples/regress.py:regress_any", "src/MuyGPyS/neighbors.py:NN_Wrapper.get_nns", "src/MuyGPyS/gp/tensors.py:make_predict_tensors", "src/MuyGPyS/gp/muygps.py:MuyGPS.posterior_mean,MuyGPS.posterior_variance")
p("The training objective is smooth on the search box, and a best model exists",
  "The function handed to the optimiser (minus the objective, as a function of the array of free hyperparameters) succeeds at every point of the box given by the bounds, is infinitely differentiable there (the cross entropy: continuous, and infinitely differentiable wherever no class probability is clipped), and attains its minimum: gradient-based optimisation is meaningful and some model within the bounds is the best.",
  "all models with a closed-form kernel and positive length-scale bounds, isotropic or anisotropic, all bounds, training sets, batches, losses (mse, pseudo-Huber, lool, looph; mse, pseudo-Huber and cross entropy for several responses or classes) and fixed or analytic scales",
  "Tests evaluate the objective at sampled points; differentiability and existence of an optimum concern a continuum of hyperparameters.",
  "src/MuyGPyS/optimize/chassis.py:optimize_from_tensors", "src/MuyGPyS/_src/optimize/chassis/numpy.py:_scipy_optimize", "src/MuyGPyS/optimize/objective.py:make_loo_crossval_fn", "src/MuyGPyS/_src/gp/kernels/numpy.py")
p("The reported variance bounds the error for every function the kernel can explain",
  "Without any probability: if the responses are values of a function of energy (squared norm in the reproducing kernel Hilbert space of the kernel) at most E, the squared error of the prediction at every test point is at most E times the variance regress_any reports there (divided by the variance scale); if every response is within epsilon of the function, at most (E + k epsilon^2 / noise) times it. Without noise no smaller number than the variance would do: some function attains it.",
  "all functions, training sets, test points, neighbour counts, isotropic or anisotropic closed-form kernels, noise levels and variance scales",
  "The bound is a worst case over an infinite-dimensional space of functions; tests can only try some.",
  "src/MuyGPyS/examples/regress.py:regress_any", "src/MuyGPyS/_src/gp/muygps/numpy.py:_muygps_posterior_mean", "src/MuyGPyS/_src/gp/muygps/numpy.py:_muygps_diagonal_variance", "src/MuyGPyS/_src/gp/kernels/numpy.py")
p("A prediction is the regularised least-squares fit to the nearest training points",
  "With positive noise tau, the prediction of regress_any at a test point is the value there of the function minimising its energy plus the sum of squared residuals over tau at the nearest training points (kernel ridge regression); without noise, of the function of least energy through their responses. Any other function of energy E differs from the prediction by at most the square root of its excess cost times the reported variance (at unit scale).",
  "all competing functions, training sets, test points, neighbour counts, isotropic or anisotropic closed-form kernels, noise levels, variance scales",
  "Optimality over an infinite-dimensional space of functions cannot be tested by trying some.",
  "src/MuyGPyS/examples/regress.py:regress_any", "src/MuyGPyS/_src/gp/muygps/numpy.py:_muygps_posterior_mean", "src/MuyGPyS/_src/gp/muygps/numpy.py:_muygps_diagonal_variance")
p("Random batches are unbiased and their order does not matter",
  "The training objective on a random batch does not depend on the order in which the batch was drawn and, averaged over all draws of b of the N training points, equals the objective on all training points (mse) or b/N of it (the losses that are sums: pseudo-Huber, and lool and looph with a fixed variance scale). The default analytic variance-scale estimate is likewise independent of the order and unbiased for the estimate on all training points.",
  "all training sets, responses, batch sizes 1 to N, all draws of sample_batch, kernels, noise levels",
  "The average runs over every draw of every size; a test samples a few draws.",
  "src/MuyGPyS/optimize/batch.py:sample_batch", "src/MuyGPyS/optimize/objective.py:make_loo_crossval_fn", "src/MuyGPyS/_src/optimize/loss/numpy.py", "src/MuyGPyS/_src/optimize/scale/numpy.py:_analytic_scale_optim")
p("The reference implementation of the shear model",
  "For all points and length scales the conventional shear Gaussian process shipped in MuyGPyS._test.shear fills its matrices with the covariances of convergence and shears, the two shear kernels of the library give the same matrices, and with all training points as neighbours (in any order) the library predicts the means and variances that conventional_mean and conventional_variance predict. conventional_variance is the joint posterior covariance of all test points, and targets_from_GP draws observations from the stated Gaussian law.",
  "all tables of points, observations, length scales, noise levels and both noise models, orders of neighbours, standard normal draws",
  "The repository compares the two on one grid with one length scale; agreement is an identity between formulas over all points, and the law of random draws is not observable from a sample.",
  "src/MuyGPyS/_test/shear.py:conventional_shear", "src/MuyGPyS/_test/shear.py:conventional_mean", "src/MuyGPyS/_test/shear.py:conventional_variance", "src/MuyGPyS/_test/shear.py:conventional_Kout", "src/MuyGPyS/_test/shear.py:targets_from_GP", "src/MuyGPyS/_src/gp/kernels/shear/numpy.py")
p("One more observation updates the exact model by its surprise",
  "With all training points as neighbours, adding a training point with its response changes each predicted mean by a gain times the surprise (response minus the mean predicted there before) and lowers each variance by the squared gain times the predictive variance of the observation; the gain does not depend on any response. In particular an observation that is exactly as predicted changes no mean, no observation raises a variance, and at the new point the prediction becomes the precision-weighted average of the old mean and the response.",
  "all kernels, training sets, added points, responses, test points, noise levels and scales",
  "A relation between three runs on different data, to hold for all real inputs; tests compare single runs.",
  "src/MuyGPyS/examples/regress.py:regress_any", "src/MuyGPyS/gp/muygps.py:MuyGPS.posterior_mean", "src/MuyGPyS/gp/muygps.py:MuyGPS.posterior_variance", "src/MuyGPyS/neighbors.py:NN_Wrapper.get_nns")
p("Repeated measurements count as their precision-weighted average",
  "With all training points as neighbours, a training set in which sites were measured several times gives the same predictions as the set with one measurement per site, namely the average weighted by one over the noise variances, whose noise variance is one over the sum of these weights. With one common noise level and equally many measurements per site: the plain mean, and the noise level divided by their number.",
  "all kernels, sites, numbers of repetitions, responses, positive noise variances, test points and scales",
  "A relation between two runs on training sets of different sizes, to hold for all real inputs, including exactly singular kernel matrices that only the noise makes solvable.",
  "src/MuyGPyS/examples/regress.py:regress_any", "src/MuyGPyS/gp/noise/heteroscedastic.py:HeteroscedasticNoise", "src/MuyGPyS/gp/tensors.py:make_heteroscedastic_tensor", "src/MuyGPyS/_src/gp/muygps/numpy.py:_muygps_posterior_mean")
p("Predicting a training point: its leave-one-out prediction, corrected by its own response",
  "If no two training points coincide, predicting training points with one more neighbour than in the leave-one-out objective gives the leave-one-out prediction averaged with the point's own response, with weights inversely proportional to the leave-one-out variance and the noise variance. Hence the residual there is never larger than the leave-one-out residual and the reported variance is at most the leave-one-out variance and at most the noise variance (times the scale): an in-sample check always looks at least as good as leave-one-out, and with no noise it is exact however bad the model.",
  "all kernels with a closed formula, training points without duplicates, responses, batches, neighbour counts, noise levels and scales",
  "A relation between two workflows (prediction and batch preparation) for all real inputs.",
  "src/MuyGPyS/examples/regress.py:regress_any", "src/MuyGPyS/neighbors.py:NN_Wrapper.get_batch_nns", "src/MuyGPyS/neighbors.py:NN_Wrapper.get_nns", "src/MuyGPyS/_src/gp/muygps/numpy.py:_muygps_posterior_mean")
p("Data helpers: subsamples, balance, normalisation, synthetic classes, reference scale",
  "_subsample and _balanced_subsample return different rows of the data, features and responses kept together; a balanced sample has as many points of every class as parity allows. _normalize gives every row norm 1. _make_gaussian_dict returns labels that are the classes of the responses it returns. The mean of _get_scale_series is what AnalyticScale estimates.",
  "all data sets, sample counts and random draws",
  "The random draws range over all subsets; the code validates none of it.",
  "src/MuyGPyS/_test/utils.py:_subsample", "src/MuyGPyS/_test/utils.py:_balanced_subsample", "src/MuyGPyS/_test/utils.py:_normalize", "src/MuyGPyS/_test/utils.py:_make_gaussian_dict", "src/MuyGPyS/_test/utils.py:_get_scale_series")
p("Command-line flags set the options they name",
  "config.parse_flags_with_absl() gives every option the value of its last flag before `--` on the command line, leaves the other options, words for other programs and thread overrides alone, keeps config.state in agreement with the options, refuses inadmissible values, and does nothing when called a second time; afterwards options are read and updated as before.",
  "all reachable configurations with admissible values and all command lines",
  "The command lines are unbounded lists of arbitrary words; the tests run with the test runner's own.",
  "src/MuyGPyS/_src/config.py:MuyGPySConfig.parse_flags_with_absl", "src/MuyGPyS/_src/jaxconfig.py:Config.config_with_absl", "src/MuyGPyS/_src/jaxconfig.py:Config.complete_absl_config", "src/MuyGPyS/_src/jaxconfig.py:Config.update", "src/MuyGPyS/_src/jaxconfig.py:Config._read")
p("Predictions vary smoothly with the hyperparameters and have the expected extremes",
  "The predictions of regress_any are infinitely differentiable functions of the length scales, the noise and (general Matern) the smoothness, on all sensible hyperparameters, and the variances are proportional to the variance scale. With growing length scales they approach the shrunken average of the nearest responses, with shrinking ones the prior away from the training points and the shrunken own response at them, and with growing noise the prior at rate 1/noise.",
  "all training sets, exact indexes, test points, closed-form kernels (and the general Matern kernel for smoothness), length scales, noises, variance scales",
  "Differentiability and limits in continuous hyperparameters cannot be observed on finitely many of them.",
  "src/MuyGPyS/examples/regress.py:regress_any", "src/MuyGPyS/gp/kernels/matern.py:Matern", "src/MuyGPyS/gp/kernels/rbf.py:RBF", "src/MuyGPyS/gp/deformation/isotropy.py:Isotropy", "src/MuyGPyS/gp/muygps.py:MuyGPS")
p("Approximate nearest-neighbour lookups",
  "NN_Wrapper builds the index named by nn_method in any letter case, raises ModuleNotFoundError for hnsw when hnswlib is not installed and NotImplementedError for an unknown name. With hnsw, get_nns names for every test point nn_count different training points, nearest first, with their distances, or raises RuntimeError when the index finds too few; get_batch_nns never lists a batch point among its own neighbours, even if the approximate search overlooks it, unless training points coincide; every prediction is the posterior given the points named, its variance never below that given all training points; and predictions equal those of the exact index whenever the same points are named, in whatever order.",
  "all training sets, approximate indices (whatever points they overlook), test points, batches, closed-form kernels, noises",
  "What an approximate index overlooks depends on its random graph; tests see a few of its answers.",
  "src/MuyGPyS/neighbors.py:NN_Wrapper", "src/MuyGPyS/examples/regress.py:regress_any")
p("What dense data can and cannot achieve",
  "With noise variance t and n neighbours no training set pushes a reported variance below sigma t/(n+t). If r <= n training points lie so close to a test point that their correlation with it is at least 1-eta, the reported variance is at most sigma (t + 2 r eta)/(r+t). Without noise, predictions are consistent: for every tolerance there is a distance, depending only on the kernel, the energy of the true function and the variance scale, such that one training point within that distance of the test point makes both the error and the variance smaller than the tolerance.",
  "all training sets, Euclidean exact indices, test points, closed-form kernels, length scales, noises, variance scales, functions of bounded energy",
  "The bounds are uniform over all training sets of all sizes.",
  "src/MuyGPyS/examples/regress.py:regress_any", "src/MuyGPyS/gp/muygps.py:MuyGPS", "src/MuyGPyS/gp/kernels/matern.py:Matern", "src/MuyGPyS/gp/kernels/rbf.py:RBF")
p("Predictions are smooth in the test point",
  "Moving a test point moves its prediction smoothly: as long as the same training points stay unambiguously its nearest neighbours, mean and variance are one infinitely differentiable function of the test point, the mean a fixed combination of kernel functions at those points; with RBF the gradient of the mean is the sum of the weights times the kernel values times the scaled directions to the training points.",
  "all training sets, Euclidean exact indices, test points, closed-form kernels, length scales, noises, responses",
  "Differentiability is a statement about all small displacements of all points.",
  "src/MuyGPyS/examples/regress.py:regress_any", "src/MuyGPyS/gp/muygps.py:MuyGPS", "src/MuyGPyS/gp/kernels/matern.py:Matern", "src/MuyGPyS/gp/kernels/rbf.py:RBF")
p("The training objective is a function of the hyperparameters",
  "Evaluating the training objective again at the same hyperparameters on the same training tensors gives the same value, whatever random numbers were drawn in between, so that training with fresh random numbers in every evaluation is training with one fixed function, and the model the Bayesian driver returns scores at least as well as the initial one on whatever random samples the two are compared.",
  "all models, losses, training data, sequences of random samples (one per evaluation), optimiser schedules",
  "Which samples the evaluations draw differs from run to run; tests fix a seed.",
  "src/MuyGPyS/optimize/objective.py:make_loo_crossval_fn", "src/MuyGPyS/gp/hyperparameter/scale.py:DownSampleScale", "src/MuyGPyS/_src/optimize/chassis/numpy.py:_bayes_opt_optimize", "src/MuyGPyS/_src/optimize/chassis/numpy.py:_scipy_optimize")
p("The numbers the classes are written with do not matter",
  "Writing the class labels with other numbers (a*y + b with a > 0 in place of every label y, for instance 1 and -1 in place of 1 and 0) multiplies all scores of a test point by a and changes them by a common amount, so that the predicted class of every test point stays the same.",
  "all models, training data, test points, labels, a > 0, b",
  "The library documents both one-hot and one-hot-minus-a-constant encodings; tests use one encoding per data set.",
  "src/MuyGPyS/examples/classify.py:classify_any", "src/MuyGPyS/gp/muygps.py:MuyGPS", "src/MuyGPyS/gp/multivariate_muygps.py:MultivariateMuyGPS")
p("The origin of the response scale does not matter",
  "Measuring all responses from another origin (adding one number to each) changes every predicted mean by that number and leaves every variance as it is.",
  "all models, training data, test points, new origins",
  "Tests use centred data.",
  "src/MuyGPyS/examples/regress.py:regress_any", "src/MuyGPyS/gp/muygps.py:MuyGPS.posterior_mean")
p("The estimated variance scale is accurate when there are many neighbours",
  "When the responses are values of a Gaussian process with the model's kernel and noise level, of unknown scale s, the scale that optimize_scale sets on a batch has variance at most 2 s^2 / nn_count, so that it misses s by a fraction e or more with probability at most 2 / (nn_count e^2).",
  "all models with an analytic scale, training data, batches, neighbour counts, scales s, e > 0",
  "A statement about probabilities over data sets; tests check a few samples with wide tolerances.",
  "src/MuyGPyS/gp/hyperparameter/scale.py:AnalyticScale", "src/MuyGPyS/_src/optimize/scale/numpy.py:_analytic_scale_optim", "src/MuyGPyS/gp/muygps.py:MuyGPS.optimize_scale")
p("A larger batch gives a more accurate objective",
  "At any hyperparameters, the training objective per batch point on a random batch of b of the N training points has, over all ways to draw the batch, the variance of batches of one point times (N - b) / (b (N - 1)); so a larger batch is never less accurate, and the same holds for the default analytic variance-scale estimate.",
  "all models, hyperparameters, training data, batch sizes, losses that are sums or averages over the batch",
  "A statement about all draws of a batch; tests fix a seed and one batch.",
  "src/MuyGPyS/optimize/batch.py:sample_batch", "src/MuyGPyS/optimize/objective.py:make_loo_crossval_fn", "src/MuyGPyS/gp/hyperparameter/scale.py:AnalyticScale")
p("Rounding the data changes predictions only a little",
  "If predictions can be computed for a table of test points, then for every tolerance there is a rounding error such that after changing every training feature, every response and every test feature by at most that error, and rebuilding the neighbour index, predictions can still be computed, and all their means and variances change by less than the tolerance.",
  "all models, tables, tolerances and changes of the data below the rounding error",
  "A statement about all small changes of the data; tests round one data set to one precision.",
  "src/MuyGPyS/examples/regress.py:regress_any", "src/MuyGPyS/gp/muygps.py:MuyGPS", "src/MuyGPyS/neighbors.py:NN_Wrapper")
p("Features that tell nothing do not matter",
  "Features that have the same value in all training and test points do not change any prediction, whatever their length scales. And as the length scales of some features of an anisotropic model grow, its predictions approach those of the model without these features.",
  "all tables, sets of features, models, responses and length scales; for the limit: all tolerances",
  "A statement about all data and a limit; tests drop one feature of one data set.",
  "src/MuyGPyS/examples/regress.py:regress_any", "src/MuyGPyS/gp/deformation/anisotropy.py:Anisotropy", "src/MuyGPyS/neighbors.py:NN_Wrapper")
p("The estimated variance scale is the most likely one",
  "For every batch, the variance scale that AnalyticScale sets is the one under which the responses of the batch's neighbourhoods are most likely as draws from the model; where all these responses are zero there is no most likely scale, and optimize_scale raises.",
  "all models, training sets, batches, responses and alternative scales",
  "A maximum over all positive numbers; tests compare with the formula or with a grid.",
  "src/MuyGPyS/gp/hyperparameter/scale.py:AnalyticScale", "src/MuyGPyS/_src/optimize/scale/numpy.py:_analytic_scale_optim", "src/MuyGPyS/gp/muygps.py:MuyGPS.optimize_scale")
p("Relations among responses hold among predictions",
  "If the responses of every training point satisfy a homogeneous linear relation, so do the predictions at every test point.",
  "all models, data sets with several responses, relations and test points",
  "A statement about all linear relations and data; tests predict given data.",
  "src/MuyGPyS/examples/regress.py:regress_any", "src/MuyGPyS/_src/gp/muygps/numpy.py:_muygps_posterior_mean")
p("Predictions computed inexactly are still good",
  "If covariances, cross-covariances and responses are computed with small errors, the linear systems of a prediction stay solvable, and the predicted mean and variance differ from the exact ones by an explicit amount that depends only on the sizes of the errors, the noise variance and the number of neighbours.",
  "all models with positive noise, data sets, test points and errors with nn_count times the covariance error below the noise variance",
  "A bound for all perturbations; tests compare two precisions on one data set.",
  "src/MuyGPyS/_src/gp/muygps/numpy.py:_muygps_posterior_mean", "src/MuyGPyS/_src/gp/muygps/numpy.py:_muygps_diagonal_variance")
p("A free smoothness costs only a little noise",
  "A Matern model whose smoothness is free predicts at new points what the model with that smoothness fixed predicts with slightly less noise; so where the noise exceeds that little, its variances are between two positive numbers, its predictions answer changes of the responses no more than a fixed-smoothness model, and err by no more than the reported variance times the energy of the truth, and more information never increases its variances.",
  "all smoothnesses, length scales, noise variances above the deficit, data sets with distinct points, new test points",
  "Two implementations of a kernel for all data; tests compare kernel values on samples with a tolerance.",
  "src/MuyGPyS/_src/gp/kernels/numpy.py:_matern_gen_fn", "src/MuyGPyS/gp/kernels/matern.py:_set_matern_fn", "src/MuyGPyS/examples/regress.py:regress_any")
p("The price of using few neighbours is the increase in the reported variance",
  "For data drawn from the model, the difference between the prediction from nn_count neighbours and the prediction from more neighbours, or from all training points (the exact Gaussian process), is normal with mean zero, and its variance is the difference of the reported variances. Whatever the data, its square is at most that difference of variances (over the variance scale) times what it takes to explain the responses: the energy of any function plus its squared residuals over the noise variance; and for some data it is that large.",
  "all models, training sets, test points and numbers of neighbours, all data drawn from the model, all responses and functions that explain them",
  "A distribution over all data, and a supremum over all functions; tests compare two models on one data set.",
  "src/MuyGPyS/examples/regress.py:regress_any", "src/MuyGPyS/gp/muygps.py:MuyGPS.posterior_mean", "src/MuyGPyS/gp/muygps.py:MuyGPS.posterior_variance", "src/MuyGPyS/neighbors.py:NN_Wrapper")
p("An observation counts according to the noise declared for it",
  "With one declared noise variance per training point, changing responses moves a mean by at most half the root of the sum of (change)^2/noise over the training points that can be among the neighbours, and by at most the predicted standard deviation (in units of the variance scale) times the sum of |change|/noise. Adding training points to an exact model (all points neighbours) lowers variances by at most the fraction sum 1/noise of the added points, and as the noise declared for the added points grows without bound the predictions become those of the model without them, whatever their responses.",
  "all models, training sets, declared noises, test points, responses and numbers of added points",
  "A bound over all responses and a limit over all noises; tests see finitely many of each.",
  "src/MuyGPyS/gp/noise/heteroscedastic.py:HeteroscedasticNoise", "src/MuyGPyS/gp/tensors.py:make_heteroscedastic_tensor", "src/MuyGPyS/examples/regress.py:regress_any", "src/MuyGPyS/gp/muygps.py:MuyGPS.posterior_mean")
p("A target mask trains on the chosen outputs",
  "optimize_from_tensors with target_mask scores exactly the chosen outputs: for every loss the objective with a mask equals the objective without a mask on the responses restricted to the chosen outputs (in the order of the mask), for all trial hyperparameters.",
  "all losses, masks, models, data, trial hyperparameters and scale policies",
  "An equality of two objectives over all masks, data and hyperparameters; the tests train with one mask and one loss.",
  "src/MuyGPyS/optimize/loss.py:make_raw_predict_and_loss_fn", "src/MuyGPyS/optimize/loss.py:make_var_predict_and_loss_fn", "src/MuyGPyS/optimize/objective.py:make_loo_crossval_fn", "src/MuyGPyS/optimize/chassis.py:OptimizeFn")
p("fixed() tells whether the optimisers leave a hyperparameter alone",
  "For every hyperparameter object (scalar, vector, tensor, knot-based), h.fixed() returns a truth value that is True exactly if optimisation is handed none of its components: both `if h.fixed():` and `h.fixed() is False` then decide correctly.",
  "all hyperparameter objects with any number of fixed and free components, all array libraries",
  "The equivalence ranges over every combination of fixed and free components and every backend; the tests ask scalars only.",
  "src/MuyGPyS/gp/hyperparameter/scalar.py:ScalarParameter.fixed", "src/MuyGPyS/gp/hyperparameter/vector.py:VectorParameter.fixed", "src/MuyGPyS/gp/hyperparameter/tensor.py:TensorParameter.fixed", "src/MuyGPyS/gp/hyperparameter/experimental/hierarchical.py:NamedHierarchicalParameter")
with open(os.path.join(os.path.dirname(__file__), "..", "properties.jsonl"), "w") as f:
    for x in P:
        f.write(json.dumps(x) + "\n")
print(len(P))
