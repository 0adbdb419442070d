import Verif.Model.Hierarchical
import Verif.Model.Objective

/-!
# Model of prediction and training with a hierarchical (nonstationary) length scale

The library has no workflow for such models: `tests/experimental/nonstationary.py:118-147` and the documentation of
`batch_features_tensor` show how the pieces are put together. `examples/from_indices.py`, `optimize/objective.py:87-117` and
`optimize/chassis.py:47-198` are modelled for such kernels too.
-/

namespace MuyGPyS
open Py

/-- A univariate model whose kernel has a hierarchical length scale — `gp/muygps.py:93-126`, `gp/hyperparameter/experimental/hierarchical.py:94-158`. -/
structure HierRegressor where
  kernel : HierKernel
  gp : MuyGPS

/-- `batch_features_tensor(features, batch_indices)` — `gp/tensors.py:134-153`, `_src/gp/tensors/numpy.py:40-44`. -/
def batchFeatures (features : Tensor ℝ) (idx : Tensor Int) : Res (Tensor ℝ) := features.take idx

/-- `make_predict_tensors` and the two kernel calls, with `batch_features=features` or (`none`) without that keyword —
`gp/muygps.py:462-475`, `tests/experimental/nonstationary.py:129-140`, `examples/from_indices.py:22-39`. -/
noncomputable def hierTensors (bessel : Flt → ℝ → ℝ) (R : HierRegressor) (features : Option (Tensor ℝ))
    (idx nn : Tensor Int) (test train targets : Tensor ℝ) : Res (Tensor ℝ × Tensor ℝ × Tensor ℝ) := do
  let r ← makePredictTensors .isotropy R.kernel.metric idx nn (some test) train targets
  let Kin ← R.kernel.call bessel r.2.1 features []
  let Kcross ← R.kernel.call bessel r.1 features []
  return (Kin, Kcross, r.2.2)

/-- Prediction as a user of such a model writes it: the features of the queried points are passed to the kernel — `gp/deformation/isotropy.py:60-90`, `gp/muygps.py:164-259`. -/
noncomputable def hierRegress (bessel : Flt → ℝ → ℝ) (R : HierRegressor) (idx nn : Tensor Int)
    (test train targets : Tensor ℝ) : Res (Tensor ℝ × Tensor ℝ) := do
  let features ← batchFeatures test idx
  let t ← hierTensors bessel R (some features) idx nn test train targets
  let μ ← R.gp.posteriorMean t.1 t.2.1 t.2.2
  let v ← R.gp.posteriorVariance t.1 t.2.1
  return (μ, v)

/-- `regress_from_indices` with such a model — `examples/from_indices.py:22-90`: the kernel is called without
`batch_features`. -/
noncomputable def hierRegressFromIndices (bessel : Flt → ℝ → ℝ) (R : HierRegressor) (idx nn : Tensor Int)
    (test train targets : Tensor ℝ) : Res (Tensor ℝ × Tensor ℝ) := do
  let t ← hierTensors bessel R none idx nn test train targets
  let μ ← R.gp.posteriorMean t.1 t.2.1 t.2.2
  let v ← R.gp.posteriorVariance t.1 t.2.1
  return (μ, v)

/-- `kernel_fn(dists, batch_features=features, **kwargs)` where `features` may be `None` (the default of `optimize`):
`None.shape` is an `AttributeError`, raised after the knot equations are solved —
`gp/hyperparameter/experimental/hierarchical.py:110-124`. -/
noncomputable def HierKernel.optFn (bessel : Flt → ℝ → ℝ) (k : HierKernel) (dists : Tensor ℝ)
    (features : Option (Tensor ℝ)) (kw : Dict Flt) : Res (Tensor ℝ) :=
  match features with
  | some B => k.call bessel dists (some B) kw
  | none =>
    if Dict.has kw "diffs" || Dict.has kw "dists" || Dict.has kw "self" then .error .type else do
    let vals := (Dict.values (filterVector k.length.params (filterVector k.length.params kw).1).1).map Flt.toReal
    let A ← k.length.perturbed
    let _ ← Tensor.solve [] k.length.params.length 1 A ⟨[vals.length, 1], fun j => vals.getD j 0⟩
    .error .attribute

/-- `obj_fn(**kwargs)` as made by `make_loo_crossval_fn(…, batch_features=features)` — `optimize/objective.py:87-117`.
The kernel of `T` is not used: `K` is the kernel. -/
noncomputable def hierObjFn (bessel : Flt → ℝ → ℝ) (K : HierKernel) (gp : MuyGPS) (scaleKind : ScaleKind) (l : LossKind)
    (mask : Option (List Nat)) (draws : List (List Nat)) (pairwise crosswise nnTargets targets : Tensor ℝ)
    (features : Option (Tensor ℝ)) (kw : Dict Flt) : Res (Option ℝ) := do
  let Kin ← K.optFn bessel pairwise features kw
  let Kcross ← K.optFn bessel crosswise features kw
  predictAndLoss ⟨⟨⟨.isotropy K.metric ⟨none, none, none, true⟩, K.smoothness, K.fn⟩, gp⟩, scaleKind⟩ l mask draws nnTargets
    targets Kin Kcross kw

end MuyGPyS
