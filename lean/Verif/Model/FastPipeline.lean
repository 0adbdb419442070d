import Verif.Model.MultiPipeline

/-!
# Model of the end-to-end fast posterior mean: `examples/fast_posterior_mean.py:89-155,158-400` (no MPI; timings omitted)

The functions for one model are `makeFastRegressor`, `fastPosteriorMeanFromIndices` and `fastPosteriorMeanAny` of `Model/Workflow`.
-/

namespace MuyGPyS
open Py

/-- `make_fast_multivariate_regressor` — `examples/fast_posterior_mean.py:90-134`; returns coefficients and updated indices. -/
noncomputable def makeFastMultiRegressor (bessel : Flt → ℝ → ℝ) (models : List Trainee) (w : NNWrapper)
    (train targets : Tensor ℝ) : Res (Tensor ℝ × Tensor Int) :=
  match train.shape with
  | [N, _] => do
    let nn ← w.getBatchNns (arange N)
    let nn' ← fastNnUpdate nn.1
    match models with
    | [] => .error .index
    | T :: _ => do
      let d ← T.R.kernel.deform.pairwise train nn'
      let y ← targets.take nn'
      let c ← multiFastCoefficients bessel models d y
      return (c, nn')
  | _ => .error .value

/-- `fast_posterior_mean_from_indices` for several models — `examples/from_indices.py:93-123`. -/
noncomputable def multiFastMeanFromIndices (bessel : Flt → ℝ → ℝ) (models : List Trainee) (idx nn : Tensor Int)
    (test train : Tensor ℝ) (closest : Tensor Int) (coeffs : Tensor ℝ) : Res (Tensor ℝ) :=
  match models with
  | [] => .error .index
  | T :: _ => do
    let d ← T.R.kernel.deform.crosswise test train idx nn
    let c ← coeffs.take closest
    multiFastPosteriorMean bessel models d c

/-- `_decide_and_make_fast_regressor` — `examples/fast_posterior_mean.py:137-161`. -/
noncomputable def decideFastRegressor (bessel : Flt → ℝ → ℝ) (M : AnyModel) (w : NNWrapper) (train targets : Tensor ℝ) :
    Res (Tensor ℝ × Tensor Int) :=
  match M with
  | .one L => makeFastRegressor bessel L.trainee.R w train targets
  | .multi Ls => makeFastMultiRegressor bessel (Ls.map Learner.trainee) w train targets

/-- `fast_posterior_mean_any` for either kind of model — `examples/fast_posterior_mean.py:358-400`; see `fastPosteriorMeanAny`. -/
noncomputable def fastAnyModel (bessel : Flt → ℝ → ℝ) (M : AnyModel) (w : NNWrapper) (test train targets : Tensor ℝ) :
    Res (Tensor ℝ × Tensor ℝ) := do
  let r ← decideFastRegressor bessel M w train targets
  let nn ← fastNnUpdate r.2
  let t ← w.getNns test
  let closest := firstCol t.1
  let closestSet ← nn.take closest
  match test.shape with
  | [m, _] => do
    let μ ← match M with
      | .one L => fastPosteriorMeanFromIndices bessel L.trainee.R (arange m) closestSet test train closest r.1
      | .multi Ls => multiFastMeanFromIndices bessel (Ls.map Learner.trainee) (arange m) closestSet test train closest r.1
    return (μ, r.1)
  | _ => .error .value

/-- `do_fast_posterior_mean` — `examples/fast_posterior_mean.py:273-308`; returns the model, the predictions and the coefficients. -/
noncomputable def doFastPosteriorMean (bessel : Flt → ℝ → ℝ) (opt : Learner → TrainData → Res Learner) (draw : List Nat)
    (scaleDraws : Nat → List (List Nat)) (batchCount : Int) (w : NNWrapper) (args : ModelArgs) (test Y : Tensor ℝ) :
    Res (AnyModel × Tensor ℝ × Tensor ℝ) := do
  let M ← decideRegressor bessel opt draw scaleDraws batchCount w args Y
  let r ← fastAnyModel bessel M w test w.train Y
  return (M, r.1, r.2)

end MuyGPyS
