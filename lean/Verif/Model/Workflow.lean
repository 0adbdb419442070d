import Verif.Model.Kernel
import Verif.Model.Posterior
import Verif.Model.Neighbors

/-!
# Model of the prediction workflows: `examples/from_indices.py`, `examples/regress.py:552-668`,
`examples/fast_posterior_mean.py` (univariate models, no MPI)
-/

namespace MuyGPyS
open Py

/-- A trained univariate model: kernel functor, noise and scale — `gp/muygps.py:93-126`. -/
structure Regressor where
  kernel : KernelObj
  gp : MuyGPS

/-- `tensors_from_indices` — `examples/from_indices.py:22-39`; returns `(Kin, Kcross, nn_targets)`. -/
noncomputable def tensorsFromIndices (bessel : Flt → ℝ → ℝ) (R : Regressor) (idx nn : Tensor Int)
    (test train targets : Tensor ℝ) : Res (Tensor ℝ × Tensor ℝ × Tensor ℝ) := do
  let r ← makePredictTensors R.kernel.deform.kind R.kernel.deform.metric idx nn (some test) train targets
  let Kin ← R.kernel.call bessel r.2.1 []
  let Kcross ← R.kernel.call bessel r.1 []
  return (Kin, Kcross, r.2.2)

/-- `posterior_mean_from_indices` — `examples/from_indices.py:42-56`. -/
noncomputable def posteriorMeanFromIndices (bessel : Flt → ℝ → ℝ) (R : Regressor) (idx nn : Tensor Int)
    (test train targets : Tensor ℝ) : Res (Tensor ℝ) := do
  let t ← tensorsFromIndices bessel R idx nn test train targets
  R.gp.posteriorMean t.1 t.2.1 t.2.2

/-- `posterior_variance_from_indices` — `examples/from_indices.py:59-73`. -/
noncomputable def posteriorVarianceFromIndices (bessel : Flt → ℝ → ℝ) (R : Regressor) (idx nn : Tensor Int)
    (test train targets : Tensor ℝ) : Res (Tensor ℝ) := do
  let t ← tensorsFromIndices bessel R idx nn test train targets
  R.gp.posteriorVariance t.1 t.2.1

/-- `regress_from_indices` — `examples/from_indices.py:76-90`. -/
noncomputable def regressFromIndices (bessel : Flt → ℝ → ℝ) (R : Regressor) (idx nn : Tensor Int)
    (test train targets : Tensor ℝ) : Res (Tensor ℝ × Tensor ℝ) := do
  let t ← tensorsFromIndices bessel R idx nn test train targets
  let μ ← R.gp.posteriorMean t.1 t.2.1 t.2.2
  let v ← R.gp.posteriorVariance t.1 t.2.1
  return (μ, v)

/-- `regress_any` — `examples/regress.py:639-662`: query the neighbours of all test points and regress
(timings omitted). -/
noncomputable def regressAny (bessel : Flt → ℝ → ℝ) (R : Regressor) (w : NNWrapper)
    (test train targets : Tensor ℝ) : Res (Tensor ℝ × Tensor ℝ) :=
  match test.shape with
  | [] => .error .index
  | m :: _ => do
    let nn ← w.getNns test
    regressFromIndices bessel R (arange m) nn.1 test train targets

/-- `fast_posterior_mean_from_indices` — `examples/from_indices.py:93-123`. -/
noncomputable def fastPosteriorMeanFromIndices (bessel : Flt → ℝ → ℝ) (R : Regressor) (idx nn : Tensor Int)
    (test train : Tensor ℝ) (closest : Tensor Int) (coeffs : Tensor ℝ) : Res (Tensor ℝ) := do
  let d ← R.kernel.deform.crosswise test train idx nn
  let Kcross ← R.kernel.call bessel d []
  let c ← coeffs.take closest
  R.gp.fastPosteriorMean Kcross c

/-- `make_fast_regressor` — `examples/fast_posterior_mean.py:39-87`; returns coefficients and the
updated neighbour indices. -/
noncomputable def makeFastRegressor (bessel : Flt → ℝ → ℝ) (R : Regressor) (w : NNWrapper)
    (train targets : Tensor ℝ) : Res (Tensor ℝ × Tensor Int) :=
  match train.shape with
  | [N, _] => do
    let nn ← w.getBatchNns (arange N)
    let nn' ← fastNnUpdate nn.1
    let y ← targets.take nn'
    let d ← R.kernel.deform.pairwise train nn'
    let Kin ← R.kernel.call bessel d []
    let c ← R.gp.fastCoefficients Kin y
    return (c, nn')
  | _ => .error .value

/-- `t[:, 0]` of a matrix — `examples/fast_posterior_mean.py:378`. -/
def firstCol {α : Type} (t : Tensor α) : Tensor α :=
  match t.shape with
  | [m, _] => ⟨[m], fun k => t.get [k, 0]⟩
  | _ => t

/-- `fast_posterior_mean_any` — `examples/fast_posterior_mean.py:360-400` (timings omitted). Note that
`fast_nn_update` is applied (line 373) to the indices `make_fast_regressor` has already updated. -/
noncomputable def fastPosteriorMeanAny (bessel : Flt → ℝ → ℝ) (R : Regressor) (w : NNWrapper)
    (test train targets : Tensor ℝ) : Res (Tensor ℝ × Tensor ℝ) := do
  let r ← makeFastRegressor bessel R w train targets
  let nn ← fastNnUpdate r.2
  let t ← w.getNns test
  let closest := firstCol t.1
  let closestSet ← nn.take closest
  match test.shape with
  | [m, _] => do
    let μ ← fastPosteriorMeanFromIndices bessel R (arange m) closestSet test train closest r.1
    return (μ, r.1)
  | _ => .error .value

end MuyGPyS
