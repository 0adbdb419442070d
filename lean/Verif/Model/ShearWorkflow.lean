import Verif.Model.Shear
import Verif.Model.Objective

/-!
# Model of prediction and training with shear models

`examples/from_indices.py` and `optimize/` applied to a `MuyGPS` whose kernel is a `ShearKernel` or a `ShearKernel2in3out`; and the way
`tests/experimental/shear.py:236-345` puts the pieces together by hand (swapping the last two axes of the neighbours' targets).
-/

namespace MuyGPyS
namespace Shear
open Py

/-- A `MuyGPS` model with a shear kernel (`two`: a `ShearKernel2in3out`), its noise model and its variance scale — `gp/muygps.py:93-126`, `gp/kernels/experimental/shear.py:60-109,169-239`. -/
structure ShearModel where
  kern : Kern
  two : Bool
  noise : Noise
  scale : ℝ
  scaleKind : ScaleKind

/-- `model.kernel(diffs, **kwargs)` — `gp/kernels/experimental/shear.py:101-130,216-265`; of the keywords only `length_scale` is
used, the backend functions swallow the others (`_src/gp/kernels/shear/numpy.py:105,166,210`). -/
noncomputable def ShearModel.call (m : ShearModel) (diffs : Tensor ℝ) (kw : Dict Flt) : Res (Tensor ℝ) :=
  let ℓ := (Dict.get? kw "length_scale").map Flt.toReal
  if m.two then m.kern.call23 diffs true false ℓ else m.kern.call33 diffs true ℓ

/-- The posterior functions of the model, `MuyGPS._make` — `gp/muygps.py:113-130`. -/
noncomputable def ShearModel.gp (m : ShearModel) : Res MuyGPS := do
  let o ← if m.two then m.kern.kout23 else m.kern.kout
  return MuyGPS.make m.noise o m.scale

/-- `t.swapaxes(-2, -1)` of an array with three axes — `tests/experimental/shear.py:262,281`. -/
def swapLast (t : Tensor ℝ) : Tensor ℝ :=
  match t.shape with
  | [b, n, r] => Tensor.ofFn [b, r, n] fun i => t.get [i.getD 0 0, i.getD 2 0, i.getD 1 0]
  | _ => t

/-- `tensors_from_indices` — `examples/from_indices.py:22-39`: `(Kin, Kcross, nn_targets)`. -/
noncomputable def shearTensors (m : ShearModel) (idx nn : Tensor Int) (test train targets : Tensor ℝ) :
    Res (Tensor ℝ × Tensor ℝ × Tensor ℝ) := do
  let r ← makePredictTensors .differenceIsotropy .F2 idx nn (some test) train targets
  let Kin ← m.call r.2.1 []
  let Kcross ← m.call r.1 []
  return (Kin, Kcross, r.2.2)

/-- `regress_from_indices` with a shear model — `examples/from_indices.py:76-90`. -/
noncomputable def shearRegressFromIndices (m : ShearModel) (idx nn : Tensor Int) (test train targets : Tensor ℝ) :
    Res (Tensor ℝ × Tensor ℝ) := do
  let t ← shearTensors m idx nn test train targets
  let gp ← m.gp
  let μ ← gp.posteriorMean t.1 t.2.1 t.2.2
  let v ← gp.posteriorVariance t.1 t.2.1
  return (μ, v)

/-- Prediction as the repository's tests write it: the same with the last two axes of the neighbours' targets swapped —
`tests/experimental/shear.py:245-262,283-345`. -/
noncomputable def shearRegress (m : ShearModel) (idx nn : Tensor Int) (test train targets : Tensor ℝ) :
    Res (Tensor ℝ × Tensor ℝ) := do
  let t ← shearTensors m idx nn test train targets
  let gp ← m.gp
  let μ ← gp.posteriorMean t.1 t.2.1 (swapLast t.2.2)
  let v ← gp.posteriorVariance t.1 t.2.1
  return (μ, v)

/-- A variance loss on `(b, r, r)` covariances — `_src/optimize/loss/numpy.py:34-61,75-117`, `optimize/loss.py:157-178`. With
`target_mask` the expression `variances[:, mask, mask]` has shape `(b, k)`: `looph` rejects it (`ValueError`), `lool` passes it to
`np.linalg.solve` as one matrix, which is an error unless it is square (that case is not modelled). `lool_fn_unscaled` gets one
argument too many: `TypeError`. -/
noncomputable def shearRunVar (l : LossKind) (mask : Option (List Nat)) (pred targ var : Tensor ℝ) (scale : Option ℝ) :
    Res (Option ℝ) :=
  match l, mask with
  | .lool, none =>
    match pred.shape, var.shape with
    | [b, r], [b', r', r''] =>
      if targ.shape = [b, r] ∧ b' = b ∧ r' = r ∧ r'' = r then
        match scale with
        | none => .ok none
        | some s => do
          let x ← Loss.loolMulti ((List.range b).map fun p =>
            ((fun c : Fin r => pred.get [p, c] - targ.get [p, c], fun c c' => var.get [p, c, c']) : Loss.Item r)) s
          return some x
      else .error .value
    | _, _ => .error .value
  | .lool, some k => if var.shape.headD 0 = k.length then .error .notImplemented else .error .linAlg
  | .looph _, _ => .error .value
  | _, _ => .error .type

/-- `obj_fn(**kwargs)` with a shear model — `optimize/objective.py:87-117`, `optimize/loss.py:79-91,157-178`. `DownSampleScale` is
not modelled here. -/
noncomputable def shearObjFn (m : ShearModel) (l : LossKind) (mask : Option (List Nat))
    (pairwise crosswise nnTargets targets : Tensor ℝ) (kw : Dict Flt) : Res (Option ℝ) := do
  let noiseKw := (Dict.get? kw "noise").map Flt.toReal
  let Kin ← m.call pairwise kw
  let Kcross ← m.call crosswise kw
  let gp ← m.gp
  let pred ← gp.optMean Kin Kcross nnTargets noiseKw
  if l.raw then do
    let pred ← maskColumns mask pred
    let x ← l.runRaw pred targets
    return some (-x)
  else do
    let scale ← match m.scaleKind with
      | .downSample _ => .error .notImplemented
      | k => scaleOptFn k gp [] Kin nnTargets kw
    let var ← gp.optVariance Kin Kcross noiseKw
    let pred ← maskColumns mask pred
    let x ← shearRunVar l mask pred targets var scale
    return x.map fun x => -x

/-- The value `optimize_scale(pairwise_diffs, nn_targets)` stores in a model with `AnalyticScale` —
`gp/muygps.py:399-403`, `gp/hyperparameter/scale.py:172-219`. -/
noncomputable def shearScale (m : ShearModel) (iterationCount : Nat) (pairwise nnTargets : Tensor ℝ) : Res ℝ := do
  let Kin ← m.call pairwise []
  analyticOpt m.noise iterationCount Kin nnTargets

end Shear
end MuyGPyS
