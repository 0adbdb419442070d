# Formal model of LLNL/MuyGPyS in Lean 4 — design

Source read: `/repo/src/MuyGPyS` (pinned commit). Lean 4.33.0 + Mathlib, project `/verif/lean`.

## 1. How the code is modelled

* **Layout.** `Verif/Py/*` – a small model of the Python/NumPy run-time the code leans on (errors as
  values, keyword dictionaries as association lists, row-major tensors, reshape/squeeze/einsum/solve).
  `Verif/Model/*` – the model of MuyGPyS, function by function, each definition citing file and lines.
  `Verif/Spec/*` – small independent specifications (what the English property says).
  `Verif/Lemmas/*` – helper lemmas. `Verif/Props/*` – only the property theorems (`C01_…`), each with
  a non-vacuity `example`.
* **Exceptions are values**: a function that may raise returns `Except Err α` where `Err` names the
  Python exception class. `np.linalg.solve` on a singular matrix is `Err.linAlg`, a wrong `reshape` is
  `Err.value`, and so on. No model function silently totalises a rejected input.
* **Tensors** are `Tensor α = {shape : List Nat, flat : Nat → α}` in row-major order; `reshape` only
  changes the shape after comparing sizes. Shape logic (which sizes coincide, what `squeeze` drops) is
  therefore part of the model and of the theorems.
* **Numbers** are mathematical reals (`ℝ`) where the code uses floats, exact rationals where a theorem
  is about comparisons that only need order, and `Nat`/`Int` for indices. Floating-point rounding is
  *not* modelled.
* **State** (config registry, hyperparameter objects, MPI ranks) is modelled as explicit state machines;
  properties quantify over all operation sequences / schedules.
* **External components as parameters**: the random generator (draws are universally quantified), the
  nearest-neighbour library (an arbitrary function satisfying the stated contract, or a reference exact
  search), SciPy / bayes-opt (arbitrary answers), MPI transport (reliable FIFO per ordered pair).

## 2. Trusted base

* Lean's kernel; axioms `propext`, `Classical.choice`, `Quot.sound` only (checked with
  `#print axioms` for every theorem named in MANIFEST.json).
* The manifest status is `proved` when the theorems cover the whole statement, `partial` when the code
  violates some case of it (then a `_fails` theorem refutes that case and a `_partial` theorem proves the rest)
  or a case is left out (then the note says which).
* The reading of the Python source that produced the model (the code is not executed). Every definition under `Verif/Model` cites the
  file and lines it models (paths relative to `src/MuyGPyS`); a definition that models a NumPy, bayes_opt, absl or MPI primitive cites the lines that use it.
* Semantics assumed for NumPy/SciPy/sklearn functions (listed in §5), and the real-number idealisation.
* Not modelled: floating point, GPU/JIT execution, performance, hnswlib's search itself (its answers are arbitrary within a contract),
  the numerical evaluation of Γ and of the Bessel function (the model calls the exact functions; theorems for an arbitrary `bs` hold whatever
  it returns), plotting, torch autograd, file I/O, the test case classes of `_test/*`. §6 lists every source file.

## 3. Per-property plan

| id | modelled | proof |
|----|----------|-------|
| C01 | `_get_chunk_sizes` over `Nat` | arithmetic + induction on rank count |
| C02 | `_prepare_parallel_data` + allgather concat over lists | induction over prefix sums |
| C03 | message-passing small-step system: ranks, FIFO channels, `_chunk_tensor` programs | invariant over every interleaving; progress + termination measure |
| C04 | `mpi_chunk` decorator, rowwise functions | corollary of C02 (map/concat) |
| C05 | all five MPI losses, incl. the self-recursive one (fuelled) | sum over concatenation; divergence theorem for `_lool_fn_unscaled` |
| C06 | MPI and serial analytic scale | sums over chunks |
| C07 | `Parameter.__init__/_set_val/_set_bounds/_set` with Python value type | invariant over op sequences; documented claim refuted by witnesses, tolerance version proved |
| C08 | sampling branch with draw as parameter | real inequalities |
| C09 | `append_lists`, `_new_muygps` | case analysis over models |
| C10 | `apply_fn`, `filter_kwargs`, kernels' opt fns on kwarg dictionaries | lookup lemmas |
| C11 | `NamedVectorParameter` dict-order semantics | negation witness + ordered-prefix theorem |
| C12 | `get_opt_params`/`fixed` for kernels × deformations × noise | case analysis, list lemmas |
| C13 | `_new_muygps` | clamp lemmas, idempotence |
| C14–C16 | `_crosswise_tensor`, `_pairwise_tensor`, `make_*_tensors` on tensors | index lemmas |
| C17–C18 | `_l2`, `_F2`, metrics and deformations | real analysis (Cauchy–Schwarz via `EuclideanSpace`) |
| C19–C20 | closed-form kernels over ℝ, `_set_matern_fn` | derivative / elementary inequalities |
| C21 | Gram matrices of RBF and closed-form Matérn kernels, noise | Schur product theorem + power series (Gaussian PSD); strict definiteness by a polynomial separating the points; Matérn as a Gaussian scale mixture; posdef ⇒ nonsingular |
| C22–C23 | noise backends and constructors | flat index lemmas, validation case analysis |
| C24–C31 | `_src/gp/muygps/numpy.py` on tensors with shapes | matrix algebra (`Matrix.nonsing_inv`, Schur complement) |
| C32 | `_fast_nn_update`, fast workflow | list lemmas; negation for workflow |
| C33–C34 | scale optimisation | quadratic forms; Babylonian iteration analysis |
| C35–C39 | losses over finite vectors | real inequalities |
| C40 | `make_loo_crossval_fn` pipeline | unfolding against independent spec; negation for noise |
| C41 | `NN_Wrapper` over an exact-search oracle | list lemmas; negation for duplicates |
| C42–C43 | batch sampling with universally quantified draws | list/multiset lemmas |
| C44–C45 | classification mask and UQ | list lemmas; negation witness |
| C46–C47 | `MultivariateMuyGPS` | pointwise; negation for σ⁴ and zeros |
| C48 | shear blocks | derivatives of Gaussians, symmetry, shapes |
| C49 | config registry + thread-local stack machine | induction over well-nested programs; negation for hook |
| C50–C51 | model equality; heap of parameter objects | negation witnesses + partial laws |
| C52 | hierarchical parameters | reuse of posterior mean |
| C53 | torch/jax variants of the functions | function equality theorems |
| C54 | regress/classify workflows | composition of C14–C16 and C24 |
| C55–C56 | mini-batch loop and Bayesian optimisation; the optimiser's suggestions and draws are oracles | induction over epochs and evaluations |
| C57–C59 | deep kernel training loop, layer forward pass, single-model prediction; embedding, losses and optimiser step are arbitrary functions | frame lemmas by induction over iterations; composition with C54 |
| C60 | `Learner` = model with parameter objects; `scipyLearn`, `bayesLearn` with arbitrary optimisers | answer written back = trial model (C13), objective = score of the trial model (C40), best of evaluated points (C56) |
| C61 | `makeRegressor`, `doRegress`, `makeClassifier`, `doClassify` with an arbitrary optimiser | batch (C42/C43), training data (C16), scale (C33), prediction (C54/C44), score (C60); definiteness (C21) discharges all solves |
| C62 | `maternGen` = `_matern_gen_fn` with `Γ` and the Bessel function `besselK` (integral definition in `Spec/Bessel`) | Matérn = inverse-gamma mixture of Gaussians (substitution in the integral), monotonicity, limits, PSD by mixing; deficit at zero |
| C63 | the numerical functions as programs on a memory of buffers: views, in-place writes, allocation (`Model/Memory`); value semantics in `Spec/Values` | each program refines the pure function, extends the memory and returns fresh buffers (bind rule); sessions by induction with the invariant that held arrays have different buffers |
| C64 | `makeMultiRegressor`, `makeMultiClassifier`, `doRegressModel`, `doClassifyModel` with an arbitrary optimiser | column data = data of the column (tensor equality), per-model loop lemmas, then C61/C54/C44 for each model |
| C65 | `doFastPosteriorMean`, `fastAnyModel`, `makeFastMultiRegressor` | closed form of the result (`C65_actual`) from the index facts of C32; difference to the documented mean is a shift of the cross-covariance vector (`shifted`), tested against all responses; zero result for several models by C47 |
| C66 | `regressAny` (no new model); similarity of configurations in `Spec/Invariance` | nearest neighbours are unique without ties and move with a renumbering (`nearest_unique`, `nearest_map`), correlations depend on scaled distances only, then the closed form of C54 on both sides; witnesses with one neighbour for the failures |
| C67 | `Model/UqPipeline` (`midValue`, `signedLabels`, `trainTwoClassInterval`, `doClassifyUq`) over `makeClassifier`, `classifyTwoClassUq`, `getBalancedBatch`, `trainCutoffs`, `makeMasks` | composition of C61, C44, C43, C45; nestedness from monotonicity of the interval in the cutoff; undecided points from linearity of the kriging mean and positivity of the variance; five collinear points as witness |
| C68 | `Model/MultiDeep` (`MultiLayer`, `MultiModule`, `trainMultiDeep`, `predictMultiple`, `predictModel`) | frame invariants of the training loop by induction; forward and prediction reduce to `C54_multi_output_partial`, the single module to `C54_regress`, on the same neighbours |
| C69 | `Model/Workflow` (`regressAny`), `Model/MaternGen` | kernels tend to 0 (gamma mixture bound for Matérn); finitely many neighbourhoods give one bound for all of them; success iff all covariances are non-singular |
| C70 | the same | nearest sets are locally constant where unambiguous, kriging does not depend on the order of the neighbours, and is continuous for fixed neighbours; jumps by explicit predictions from one neighbour |
| C71 | the same; statistical model in `Spec/Prior` | joint Gaussian law of neighbours' responses and latent value; the kriging error is uncorrelated with the responses, hence independent, hence the conditional law (Mathlib `condDistrib`) is normal |
| C72 | `Model/Pipeline`, `Model/Scale`, `Model/Batch` | the mean of yᵀK⁻¹y is the scale times the number of neighbours (trace); a non-degenerate normal variable is almost surely not zero |
| C73 | `Model/Objective`, `Model/Train`, `Model/Batch` | errors of any other model are the best errors plus an independent shift; even convex losses cannot gain from that; for `lool` x - 1 ≥ log x, with noise an explicit larger scale does better |
| C74 | `Model/Sampler` | induction over the intervals: each marks one new point of its slice of the shuffle; failures by evaluation |
| C75 | `Model/Sampler` | the Cholesky factor of a positive definite matrix exists (`Props/Cholesky`), so the sample is a linear image of standard normal numbers with covariance `L Lᵀ`; different points give positive definite matrices (the general Matérn kernel needs noise above its deficit, bounded by ε²) |
| C76 | `Model/Sampler`, `Model/Workflow` | C75 and the Gaussian conditioning of C71, with extra variance of the test response; with any other noise level the variance from one neighbour is wrong |
| C77 | `Model/MpiCalls` | message-passing system with every rank running a program of scatters; in any terminal state a rank has taken a prefix of what it was sent (invariant), so the outcome of the nested scatters is determined; failure for two or more ranks |
| C78 | `Model/MpiCalls` | the same invariant with matching numbers of receives; termination by a decreasing measure |
| C79 | `Model/Workflow`, `Model/Posterior` | both runs reduce to the same neighbourhoods; mean column by column from C24/C54; transfer of C71 |
| C80 | `Model/Update`: methods as functions to the object left behind and the outcome, stores in source order | case analysis per method; induction over histories; prefix invariant for the loop over outputs; witnesses |
| C81 | `Model/Update`, `Learner.make` | invariant "the bound implementation is the one the smoothness calls for and the captured scale the stored one"; witnesses with two neighbours |
| C82 | `Model/HierWorkflow` | blocks of the kernel tensors equal those of the stationary model with the interpolated length scale (C52, C54, C24); witness with two knots |
| C83 | `Model/Train`, `Model/Pipeline` | every function from the tensors to the prediction commutes with the change of unit (operational equalities, exceptions included); best-of-history is invariant under increasing affine maps |
| C84 | `Model/Workflow` | counting argument: the old neighbours stay among the new ones; then Loewner monotonicity and the submatrix inequality of C29; witness on a line |
| C85 | `Model/Workflow` | the joint covariance is positive semidefinite (C21), hence the kriging weights have norm at most 1/(2 sqrt(tau)); Cauchy–Schwarz |
| C86 | `Model/Classify` | C44 for both namings with the same neighbours; three-point witness |
| C87 | `shearRegress`, `shearRegressFromIndices`, `shearObjFn`, `shearScale` compose the models of tensors, shear kernels, posteriors, noise, losses and scale; the promise is stated with kriging under `covariance` (derivatives of the potential). Partial: needs the targets swapped by hand; failure theorems for the library's own tensors, with a concrete survey. |
| C88 | No new model: `heteroscedasticPerturb`, `makeHeteroscedasticTensor`, `regressAny`, `doRegress`, `makeFastRegressor`; the promise is kriging with `diagonal` of the noise of the actual neighbours. Partial: the noise tensor must be made for exactly the queried points; failure theorems. |
| C89 | No new model: `regressAny`, `Learner.score`, `sampleBatch`. `Spec/FullGP.lean` states the dense Gaussian process and its closed leave-one-out formulas; proved by invariance of kriging under a permutation of the neighbours and by block elimination of one row. |
| C90 | No new model: `sampleBatch`, `Learner.trainData`, kernel and `posteriorMean`; `Learner.looMeans` names the composition. Two responses that differ at the batch point only give equal predictions for it. Partial: failure theorem for coincident training points. |
| C91 | No new model: `regressAny`. `Spec/Coverage.lean`: nominal coverage, covered points, `Calibrated`. From the posterior law of C71 and its independence of the observations. Partial: failure theorem for responses of test points (C71/C76: the noise of a new response is not in the variance). |
| C92 | No new model: `regressAny`, `classifyAny`. `Spec/PointFunction.lean`: `PredictsPointwise` (one partial function of a point decides every table). From `regress_cases_nns`, `query_ok` and C44/C54. Partial: heteroscedastic noise, as many responses as neighbours. |
| C93 | No new model: `regressAny`. `Spec/Locality.lean`: balls, `AgreeNear` (bijection between the training points in a ball). From C92 (`predictAt`): the neighbours in both sets are the points of the ball, up to order, and kriging is blind to the order. Partial: several responses as in C79. |
| C94 | No new model: `arrayObjFn`, `Learner.objective`, `getOptParams`. `Spec/Smooth.lean`: the search box. The objective is rewritten as kriging means/variances with the length scales and noise in force (C40, C60, C73); covariances are smooth in the length scales (the distance of two different points is never zero), inverse matrices by Cramer's rule, Heron iterates of the analytic estimate by induction; a continuous function on a compact box has a minimum. General Matérn: `Lemmas/MaternSmooth.lean` shows that the correlation is smooth in smoothness and distance together (differentiation under the integral of its Gaussian mixture, all orders). Several responses or classes (`Spec/SmoothClasses.lean`): the scores are smooth, the losses of means are continuous functions of the scores. |
| C95 | No new model. `Spec/ErrorBound.lean`: the energy of a function, by finite sums only. A prediction is a weighted sum of responses (C54); Cauchy–Schwarz for the positive semidefinite covariance function (C21) bounds the error by the energy and the form of the weights, which is the kriging variance minus the noise part; the extremal function is the residual covariance. |
| C96 | No new model. `Spec/ErrorBound.lean`: `RidgeFit`, `MinimalInterpolant`. The representer coefficients solve the system of C54; orthogonality of the error functional of C95 and the data functional in the product of the Hilbert space and the residual space gives both optimality and the (Golomb–Weinberger) bound. |
| C97 | No new model. `Spec/BatchAverage.lean`: the average over all injective draws. Each batch point has a leave-one-out prediction that depends on the training set only (C42/C81), so the objective is a (normalised) sum over the batch of a per-point term; exchangeability of the uniform draw does the rest. |
| C98 | `Model/ShearReference.lean`: `_test/shear.py` function by function (`np.linalg.solve` by its contract, `np.linalg.cholesky` and normal numbers as in C75). The six formulas are compared with the derivative covariances of `Spec/Shear.lean`; the library side is C87; reordering all neighbours is a permutation of the system. Gaussian law as in C75. |
| C99 | `C89_regress` for the three calls (old model at the test points, old model at the new point, new model at the test points), and the solution of a positive definite system with one more row and column. `Spec/Sequential.lean`. |
| C100 | `C89_heteroscedastic` and `C89_regress` for the two calls; the posterior of the full set is a function of the measurements through the averages (the weights of the averaged model, spread over the measurements by precision, solve the full system). `Spec/Replicates.lean`. |
| C101 | `query_ok` and `batch_ok`: the neighbours in prediction are the point itself and then the batch neighbours (`answer_self`); `C54_regress` for both calls; rank-one update of the kriging system (`update_weights` of C95 after moving the point to the end). |
| C102 | model of the helpers of `_test/utils.py` (`Model/DataUtils`), `IsDraw` for the random choices; `flatten_parts` of C43 for the balanced sample, `C33_documented_formula` for the scale. |
| C103 | model of `parse_flags_with_absl` and of the absl branch of the configuration (`Model/ConfigAbsl`); the command line as a list of intended words (`Spec/ConfigAbsl`), induction over it; after parsing, the configuration is one the plain model reaches by updates. |
| C104 | the neighbours do not depend on the model (`regress_family`), the covariances are smooth in the hyperparameters, and so is the inverse; limits by continuity of kriging at the all-ones / identity matrices; large noise by Cauchy–Schwarz. |
| C105 | `Model/Lookup`: the index is an arbitrary partial function satisfying the contract `Hnsw.Sound`; predictions by `C54_regress`, comparison with all training points by monotonicity of the explained variance, order by permutation invariance of kriging. |
| C106 | lower bound from positive semidefiniteness of the joint covariance and Cauchy–Schwarz, upper bound by testing the variational formula with the average of the `r` close measurements, consistency with the energy bound of C95. |
| C107 | a clear set of neighbours stays clear nearby (`clear_open`), there the prediction is a kriging formula with a fixed matrix; smoothness from that of the kernels, through the points where the distance vanishes by one-variable bridging lemmas. |
| C108 | `Model/FreshDraws`: the optimisers of `Model/Train` with separate draws for every evaluation; equal to those when the objective ignores the draws (case analysis over losses and scales); a concrete data set with two neighbours for the failure. |
| C109 | `Spec/Recode`: the affine relation of two label tensors. Kriging is linear in the responses and one model has one set of weights, so all scores of a point change alike (`C44_actual` for the masks); two RBF models of different noise for the failure. |
| C110 | `Spec/Recode.Shifted`; linearity of kriging for the exact change, `C69` (reversion to the prior) for the failure, which holds for every model. |
| C111 | The model and process of `C72`: whitening with a Cholesky factor makes each quadratic form a sum of squares of independent normal variables; the fourth moment of a normal variable from its moment-generating function; variance of an average; Chebyshev. |
| C112 | `Spec.drawVariance`; the batch objective as a sum over its points (C97); any two drawn points are an average pair of different points (averaging over all permutations, which are 2-transitive); variance of sampling without replacement. |
| C113 | `CloseRows`, `CloseEntries`; the predictions as functions of all data, continuous where the kriging systems are solvable (inverse of a matrix, covariances in both arguments); the neighbours stay the same near unambiguous points. Counterexamples: a tie, a training point with the general Matérn kernel. |
| C114 | `Extends`, `ConstantElsewhere`; the scaled distance is a sum over features, whose extra part vanishes or tends to zero; then transport of regressions (C68) or continuity of kriging. Counterexample: two points whose order is reversed by the ignored feature. |
| C115 | `Spec.normalDensity` (shown to be the product of normal densities for independent responses), `Spec.scaleLikelihood`; logarithm, `log x < x - 1`. |
| C116 | `Related`; kriging is linear in the responses (C79). Counterexample: two points, a prediction outside, where one weight is negative. |
| C117 | `Spec.computedError`; `(K + τ) x · x ≥ τ x · x` bounds the perturbed solution, the residual in the exact system is multiplied by weights of length at most `1/(2 √τ)` (C85). For errors in the distances: every kernel function with a closed form has a derivative of at most 1. |
| C118 | `Regressor.GeneralMatern`, `Regressor.ClosedMatern`, `NNWrapper.New`; the deficit of C62 enters the covariance like a negative noise, so the matrix solved is the true Matérn covariance plus `τ - deficit`; then C64, C81, C85, C117 for that matrix; deficit at most machine epsilon for 1/2, 3/2, 5/2. |
| C119 | `PriceBound` (`Spec/FewNeighbours`); averages from the posterior law of C71: the error from more neighbours is independent of the difference, so characteristic functions divide; worst case: the difference of kriging weights `d` has `dᵀ(K + τ)d` = difference of variances, Cauchy–Schwarz, attained by `y = (K + τ) d`. |
| C120 | `Regressor.Declares` (`Spec/NoisyPoints`): noise tensor made by `make_heteroscedastic_tensor` from one variance per training point. `Lemmas/Noisy`: the weight of a response times its noise is the covariance of the prediction error with the process there, at most the predicted standard deviation; for dropped observations the difference `d` of the weights has `dᵀAd = Σ d_i r_i` over the dropped ones only, Cauchy–Schwarz. |
| C121 | The masked objective is `C40_raw` with `pickOutputs`; the kriging mean of one output uses the responses of that output only. Failures: the posterior variance of a univariate model has one axis (`diagonalVariance_core'`). |
| C122 | `HyperObj.fixed` against the names that `append_lists` collects; `mm.all(generator)` as NumPy/JAX/PyTorch define it (§5). Failure theorems for vectors and knots. |

## 4. Where the code and the property disagree (findings)

Each line is a machine-checked refutation (a theorem whose name ends in `_fails`, or is named here) of the property as
documented; the manifest note of the property says what remains true.

* **C04** `C04_nested_chunk_fails`: under MPI the deformation methods chunk difference tensors that are already chunked.
* **C05** `C05_lool_unscaled_diverges`: the MPI `lool_fn_unscaled` calls itself for ever; `C05_cross_entropy_empty_rank_fails`: a rank without rows makes the MPI cross entropy raise.
* **C07** bounds hold only up to an absolute tolerance; `_set_bounds` never re-checks the value.
* **C10/C11** `C10_closed_form_ignores_keyword`, `C11_swapped_fails`: a trial smoothness given to a closed-form Matérn is ignored; trial length scales are assigned positionally, so overriding only `length_scale1` changes `length_scale0`.
* **C12/C23** models with `NullNoise` cannot be asked for their optimisable parameters; negative fixed noise is accepted.
* **C13** a NaN answer of the optimiser is stored.
* **C24/C31** `C24_responses_eq_neighbours_fails`: `response_count == nn_count` raises; squeezing breaks fast prediction with one query or one neighbour.
* **C32** `C32_workflow_fails`: `fast_posterior_mean_any` applies the nearest-neighbour update twice; the returned values are not the kriging means.
* **C33** `iteration_count ≥ 2` converges to the square root of the documented scale; several responses are rejected.
* **C72**, **C111**, **C115** with `iteration_count ≥ 2` the mean of the estimated scale is at most `(s + 1) / 2` (equal to it for two iterations) instead of `s`,
  more neighbours do not make it accurate, and it is not the most likely scale unless that is 1.
* **C38/C39/C53** torch cross entropy differs for more than two classes; multi-output `lool` adds the pair `(sign, logabsdet)` by broadcasting; torch matrix losses are vectors; several jax multi-output functions raise or use a wrong divisor; the jax general Matérn is NaN at zero distance off the diagonal.
* **C40** analytic scale optimised together with noise uses a stale noise; `lool_fn_unscaled` always raises in the objective; responses given as a column `(N, 1)` (the documented layout) make `lool_fn`/`looph_fn` weigh every residual with every variance (broadcast to `(b, b)`), which can reverse the ranking of two models; `r ≠ 1, b` responses raise.
* **C41/C57** with repeated points the neighbours of a training point can contain the point itself.
* **C43/C44/C45** labels are truncated to integers; class balance is lost for short classes; only the first label column decides whether a neighbourhood is constant; UQ masks multiply the cutoff with the variance, calibration with the standard deviation.
* **C46/C47** multi-output variances carry one scale factor too many; metrics of models other than the first are ignored; multi-output fast prediction returns zeros (and would add the noise twice if the values were kept: `C47_succeeds`).
* **C48** crosswise and pairwise shear tensors are confused when the counts coincide; a single query loses its batch axis; the prior covariance ignores a trial length scale.
* **C49** leaving an outermost configuration scope sets the derived state to `None`; updates are not validated; state is shared between threads; `MUYGPYS_*_ENABLED` have no effect.
* **C50/C51** model equality ignores the kernel class, is not symmetric, can raise `KeyError`, NaN is not reflexive; models built with default arguments share hyperparameter objects.
* **C52** with the default noise the knots are not reproduced; trial values for other than the first knots are permuted.
* **C55** without `keep_state`/`probe_previous` the answer is only the best of the last epoch and can be worse than the start; anisotropic models fail for more than one epoch.
* **C57/C58** refreshed neighbours of deep kernel training are never used, contain the point itself, the model can come back in training mode, `"l1"` is refused, the default loss raises for several responses; the fixed flag and bounds of the length scale are ignored.
* **C60** an anisotropic model with a fixed length scale before a free one, or with more than ten length scales under a `bayes_opt` that sorts names, is optimised with the wrong dimensions: the exact optimum of the objective gives a model strictly worse than the initial one.
* **C61** `make_regressor` with an analytic scale raises `ValueError` if all responses around the batch are zero; with only fixed hyperparameters the analytic scale is never estimated; models without noise (`NullNoise`) raise `AttributeError`; `make_classifier` never estimates the scale.
* **C64** with one model per response, `optimize_scale` does not rebuild the models' variance functions and `posterior_variance` multiplies by the scale again: the variances are right for models built with scale 1 (two defects cancel) and wrong by the old scale otherwise; with all models fixed they are `s²` times the unit variance. `do_classify` raises `ValueError` for a tuple of models (`do_regress` accepts it). When some model is free, the scale of fixed models is estimated too; when all are fixed, none is.
* **C65** `fast_posterior_mean_any` shifts the neighbour indices a second time, so entry `j` of the cross-covariances belongs to neighbour `j - 1`: the prediction is the documented one for all responses iff the test point is equally correlated with all the neighbours; noise-free models do not interpolate. With one model per response all coefficients and predictions are zero.
* **C66** Neighbours are chosen by unscaled distances: changing the unit of one feature together with its length scale changes the neighbours and the prediction. With equidistant training points the prediction depends on their order.
* **C67** `do_classify_uq` compares the second score with the midpoint of the label values instead of with the first score: for one-hot labels a test point with mixed neighbours and exactly equal scores is not flagged. (For symmetric labels the two agree.)
* **C68** `MultivariateMuyGPs_layer` registers no parameters: training never changes a length scale or noise of its models, whatever the optimiser.
* **C73** with noise the leave-one-out likelihood (`lool`) never rates the true model highest on average: `lool` divides the squared error of a *noisy* response by the posterior variance of the *noise-free* value (no `+ noise`), so a larger scale always scores better.
* **C74** `UnivariateSampler2D()` with its default arguments raises `ValueError` (its `train_ratio` defaults to 10); a ratio below `1/n` raises `ZeroDivisionError`; the split is not determined by `seed`, because the points are picked by the global `np.random.choice` rather than by the seeded generator.
* **C75, C76** the samplers give `measurement_noise()` — a variance everywhere else — to `np.random.normal` as the standard deviation, so the training responses have measurement errors of variance `σ²` where the model of the tutorials (`noise=measurement_noise`) assumes `σ`; the reported variances are then wrong.
* **C77** in the MPI backend `metric` is built from the MPI versions of `_crosswise_tensor`/`_pairwise_tensor`, which scatter; `make_predict_tensors(…)`/`make_train_tensors(…)` call them on rank 0 only (inside `@mpi_chunk`, with `disable_mpi=True` which only concerns the deformation's own decorator). With two or more ranks every other rank receives unmeasured differences as its distances and distances of rank 0 as its targets, two messages per rank remain in the channels and are received by the next scatter, and with synchronous sends rank 0 blocks for ever (`C77_model_tensors_fail`, `C77_next_call_fails`).
* **C79** with as many responses as neighbours (`response_count == nn_count`) `regress_any` raises `ValueError` for every model and data set although each response alone is predicted (`C79_as_many_responses_as_neighbours_fails`).
* **C80** `set_params(known=..., unknown=...)` raises `KeyError` after the known hyperparameter was changed. `MultivariateMuyGPS.optimize_scale` raises when a later output's estimate is not positive (for example an all-zero response) after the scales of the earlier outputs were changed.
* **C81** `set_params(smoothness=...)` does not take effect: a Matérn kernel with smoothness 1/2 given 3/2 reports 3/2 and computes the exponential kernel. The next `optimize_scale` estimates the scale with the old kernel and then switches to the new one, so the scale does not belong to the kernel; calling it again gives another value.
* **C82** a length scale interpolated from positive knots can be negative (knots 1 and 10 at the points 0 and 1, default kernel and noise, queried at −1): the Matérn covariance then exceeds 1 and the reported variance is negative, without an error. The workflows of `examples/` never pass `batch_features`, so they raise `KeyError` for such models, and `optimize` needs the argument its signature calls optional (`AttributeError`).
* **C83** `AnalyticScale(iteration_count > 1)` is not equivariant: with responses in another unit the estimate is not multiplied by the square of the unit, so the reported variances depend on whether metres or millimetres are used.
* **C70** predictions jump where the set of nearest neighbours changes (inherent to the method), and those of the general Matérn implementation also at every training point, whatever the smoothness.
* **C62** `_matern_gen_fn` replaces distance 0 by machine epsilon: the kernel of a point with itself is below 1 (towards 0 for small smoothness) and below that of different points closer than epsilon; with less noise than this deficit covariances are indefinite and variances negative.
* **C84** a new training point can increase the reported variance when `nn_count` stays the same (it displaces a farther but more informative neighbour): Matérn 1/2, neighbours −1 and 3, new point −2, test point 0. With equidistant training points (1, −1, 1, 1 around 0) three neighbours can give a larger variance than two, because the index promises nothing about which of the equidistant points it returns.
* **C86** with three or more classes the predicted class depends on which class is encoded in column 0 (a consequence of the C44 defect): exchanging two class names changes the predicted class from the nearest neighbour's to the majority's.
* **C87** `regress_from_indices`, `make_train_tensors` and `optimize_scale` lay the neighbours' targets out as (point, neighbour, quantity), the shear kernels as (point, quantity, neighbour): with a shear model `regress_from_indices` raises `ValueError` for every data set unless there are exactly as many neighbours as quantities, and then it silently takes the observation of quantity `a` at neighbour `i` for that of quantity `i` at neighbour `a` (witness: all observed shears zero, predicted shear `1/4`); `optimize_scale` silently estimates from reordered observations (witness: `31/126` instead of `1/21`). `C87_workflow_raises`, `C87_workflow_wrong`, `C87_scale_wrong`.
* **C88** Heteroscedastic noise is attached to positions, not observations: a model made for one list of test points raises `ValueError` for any list of another length (for every data set; so `do_regress`, which trains and predicts with one model, succeeds with an estimated scale only if the batch has as many elements as the test set), and for the same points in another order silently uses the noise of other observations.
* **C90** With coincident training points the neighbours of a batch point may contain the point itself (C41), and the leave-one-out prediction then uses the very response it is compared with.
* **C91** Intervals from the predicted variances cover noisy test responses less often than nominal (exactly: as intervals shortened by the factor sqrt(v/(v+s*tau))); they are intervals for the noise-free value only.
* **C92** With heteroscedastic noise the prediction for a point depends on its place in the table; one test point with a singular neighbourhood makes `regress_any` raise for the whole table.
* **C98** `conventional_Kout` (`_test/shear.py:173-181`) assigns the prior variance of one point to *every* entry of the diagonal blocks, so `conventional_variance` reports for two different test points a covariance that is too large, whatever the data (`C98_joint_covariance_fails`); the tests use the same matrix on both sides.
* **C102** `_normalize` (`_test/utils.py:294-305`) is documented to give rows of norm 1; it multiplies with `sqrt(feature_count / sum)`, so rows get norm `sqrt(feature_count)` (`C102_normalize_fails`); `_balanced_subsample` returns fewer points than asked for unless the class count divides the sample count (`C102_balanced_size_fails`).
* **C103** `parse_flags_with_absl` (`_src/config.py:27-31`) keeps only the words that begin with `--muygpys`, so `--muygpys_backend torch` always raises (`C103_separate_value_fails`) and `--nomuygpys_mpi_enabled` is silently ignored (`C103_negated_ignored`); a backend set by flag is not checked to be installed (`C103_not_installed_fails`).
* **C107** (a property of the documented kernels, not a defect): with Matérn 1/2 the mean is not differentiable at training points (`C107_kink_fails`).
* **C108** `DownSampleScale.get_opt_fn` draws new samples in every evaluation of the objective (`gp/hyperparameter/scale.py:278-283`): with a variance loss the optimisers are given a random function, and an unlucky evaluation of the initial point can make them return a strictly worse model (`C108_downsample_fails`).
* **C109** with one model per class (`MultivariateMuyGPS` classifiers) the predicted class depends on the numbers the classes are written with (`C109_one_model_per_class_fails`): each model shrinks the scores towards the number 0 by its own amount.
* **C110** the model has no mean function and nothing centres the responses (`gp/muygps.py`): predictions depend on the origin of the response scale, for every model (`C110_shift_fails`).
* **C113** Rounding the training features changes predictions discontinuously where a test point is equally far from two training points: with one neighbour the mean can move by more than 1/8 of the response however small the rounding. With the general Matérn implementation rounding a test point that is a training point has the same effect (C62).
* **C114** Neighbours are found by unscaled distances, so a feature whose length scale says that it does not matter still decides which training points are the neighbours: with one neighbour the mean differs by 1/2 of the response for every length scale of the feature.
* **C116** Bounds on responses do not carry over: positive responses can have arbitrarily negative predictions, because kriging weights can be negative.
* **C118** Freeing the smoothness changes predictions even at the same value: the general implementation takes the deficit (C62) off the noise variance, and at training points it also takes it off the cross-covariance.
* **C121** `make_var_predict_and_loss_fn` indexes `variances[:, target_mask, target_mask]`; univariate variances have one axis, so `lool`/`looph` training with a mask always raises `IndexError`. With vector responses the mean losses raise too.
* **C122** `VectorParameter.fixed()` is `mm.all(generator)`: with NumPy the generator object itself (always truthy, never `is True`/`is False`), `TypeError` with JAX/PyTorch; `NamedHierarchicalParameter.fixed()` raises `AttributeError`.

Documentation errors that are not properties here: the RBF documentation says `exp(-d)` while the code computes `exp(-d/2)`; the shear
kernel's length scale enters unsquared.

## 5. Assumed semantics of Python and the libraries

Numbers: a float is a real or an extended real (`Flt`: finite, ±∞, NaN) without rounding; arithmetic with zero, infinite or NaN length
scales is not modelled. Integers are unbounded.

* NumPy: row-major tensors; broadcasting of axes of length one; `einsum` broadcasts axes of length one; `atleast_3d`, `squeeze`,
  `reshape` (error on a different size); fancy indexing with negative wrap-around and `IndexError`; `linalg.solve` raises `LinAlgError` exactly on
  singular matrices and (NumPy ≥ 2) takes a right-hand side as a stack of matrices unless it is one-dimensional; `slogdet` returns a pair that
  broadcasts as an array of two; `median`/`mean` of nothing is NaN; `argmin` takes the first NaN; `random.uniform` raises `OverflowError` on an infinite
  range; `random.choice` and `permutation` are universally quantified draws; `random.normal(0, s)` is `s` times a
  standard normal number, `ValueError` for negative `s`; `linalg.cholesky` returns the factor of the symmetric matrix in the lower triangle,
  `LinAlgError` when it is not positive definite; `np.mod(i, 0) = 0`.
* NumPy memory (`Model/Memory`): `reshape`, `squeeze`, `atleast_3d` and `None`-indexing return views, `x[...] op= y` and `fill` write in place, `copy` and
  every other operation allocate; arrays are contiguous.
* scikit-learn: `kneighbors` returns `k` distinct indices of nearest points (ties arbitrary) and raises for `k > N` or a wrong feature count;
  `log_loss` clips by the float epsilon and rejects empty input; `NNWrapper.Exact` is this contract.
* hnswlib: `knn_query` returns the asked number of distinct labels (row numbers of `add_items`), nearest first, with their distances, or raises
  `RuntimeError` when its graph search finds fewer; which points it overlooks is arbitrary (`Hnsw.Sound`).
* bayes_opt: `probe`, `maximize`, `max` bookkeeping as documented, keyword names sorted (1.x; so `length_scale10` precedes `length_scale2`) or in the
  order of the bounds (`KeyOrder`), duplicate
  points allowed, objective values real. SciPy's optimiser: an arbitrary answer; `scipy.special.gamma` and `kv` are the exact functions `Γ` and `K_ν`.
* absl: `FLAGS` splits `--name=value` at the first `=`; a boolean flag needs no value, an enumeration without `=` takes the next word; undefined names are
  skipped; boolean texts `true/t/1/false/f/0` in any case; enumerations take their listed values; defaults are parsed like texts.
* mpi4py: reliable FIFO channels per ordered pair of ranks; `allgather`, `allreduce`, `scatterv` semantics.
* torch/jax: functions whose text equals the NumPy one share its model; jax's out-of-range indexing and singular solves (no exception there) are treated
  as errors; `sum` of `_src/math/torch.py` has `axis=0`. `all` of a generator: NumPy returns the object, jax and torch raise `TypeError` (C122). Autograd, optimisers and schedulers are an arbitrary step function; dropout is a draw counter.

Simplifications local to one definition are stated in its comment. Others worth knowing: partially performed in-place updates before an
exception are modelled in `Model/Update` only; user-made explicit sharing of parameter objects is not modelled; hierarchical parameters only for the name
`length_scale` on `Isotropy`; classification results of shapes other than `(count, classes)` raise; loss names are lower-case.

## 6. What is modelled, file by file (`/repo/src/MuyGPyS`)

| source | model |
|---|---|
| `_src/mpi_utils.py`, `_src/*/mpi.py` | `Model/Mpi`, `Model/MpiCalls`, `Model/MpiLoss`, `Model/Scale` |
| `_src/config.py` | `Model/Config` (the class used without JAX), `Model/ConfigAbsl` (command-line flags) |
| `_src/gp/tensors/numpy.py`, `gp/tensors.py` | `Model/Tensors` |
| `_src/gp/kernels/numpy.py`, `gp/kernels/*.py` | `Model/Kernel` (general-ν Matérn as an arbitrary function), `Model/MaternGen` (its actual text) |
| `_src/gp/kernels/shear/numpy.py`, `gp/kernels/experimental/shear.py`, `gp/noise/shear.py` | `Model/Shear`, `Model/ShearWorkflow`, `Model/Noise` |
| `_src/gp/noise/numpy.py`, `gp/noise/*.py` | `Model/Noise`, `Model/Param` |
| `_src/gp/muygps/numpy.py`, `gp/mean.py`, `gp/variance.py`, `gp/fast_*.py`, `gp/muygps.py` | `Model/Posterior`, `Model/Workflow`, `Model/ModelEq` |
| in-place effects and aliasing of the above (kernels, noise, posterior, from-indices) | `Model/Memory` |
| exceptions half way through in-place changes (`set_params`, `_set_val`, `optimize_scale`) | `Model/Update` |
| `gp/multivariate_muygps.py` | `Model/Multivariate` |
| `gp/deformation/*.py` | `Model/Kernel`, `Model/Tensors` |
| `gp/hyperparameter/{scalar,vector,tensor,scale}.py` | `Model/Param`, `Model/Hyper`, `Model/Scale`, `Model/ScaleHist`, `Model/Sharing` |
| `gp/hyperparameter/experimental/hierarchical.py` | `Model/Hierarchical`, `Model/HierWorkflow` (`NamedHierarchicalVectorParameter` not: nothing in the library uses it) |
| `_src/optimize/scale/*.py` | `Model/Scale`, `Model/Backends` |
| `_src/optimize/loss/*.py`, `optimize/loss.py` | `Model/Loss`, `Model/MpiLoss`, `Model/Backends` |
| `optimize/objective.py` | `Model/Objective` |
| `optimize/batch.py` | `Model/Batch` |
| `_src/optimize/chassis/numpy.py`, `optimize/chassis.py`, `optimize/experimental/chassis.py` | `Model/Hyper`, `Model/BayesOpt`, `Model/Train`, `Model/FreshDraws` |
| `neighbors.py` | `Model/Neighbors` (exact index), `Model/Lookup` (construction, approximate index) |
| `examples/{regress,classify,from_indices,fast_posterior_mean}.py` | `Model/Workflow`, `Model/Classify`, `Model/Pipeline`, `Model/MultiPipeline`, `Model/FastPipeline` |
| `examples/two_class_classify_uq.py` | `Model/Classify`, `Model/UqPipeline` |
| `examples/muygps_torch.py`, `torch/muygps_layer.py`, `torch/multivariate_muygps_layer.py` | `Model/DeepKernel`, `Model/MultiDeep` |
| `_src/*/torch.py`, `_src/*/jax.py` | `Model/Backends` where the text differs from NumPy |
| `_src/math/*`, `_src/util.py` | the conventions of §5 (`_collect_implementation` in `Model/Config`) |
| `_test/gp.py`, `_test/sampler.py` (without plotting) | `Model/Sampler` |
| `_test/shear.py` (without the test case class) | `Model/ShearReference` |
| `_test/utils.py` (data helpers) | `Model/DataUtils` |
| `_src/jaxconfig.py` (class `Config`) | `Model/Config` |
| not modelled | `absl.app.run`, the unused flag definitions of `_src/jaxconfig.py`, the test case classes and assertion helpers of `_test/*`, plotting, verbose output, timing dictionaries |
