import Verif.Model.Objective
import Verif.Model.ScaleHist

/-!
# Model of `gp/multivariate_muygps.py` (numpy backend, no MPI)

A `MultivariateMuyGPS` object is the list of its univariate models.
-/

namespace MuyGPyS
open Py

/-- `mm.zeros(shape)` — `gp/multivariate_muygps.py:156,219,275,331`. -/
noncomputable def zeros (shape : List Nat) : Tensor ℝ := ⟨shape, fun _ => 0⟩

/-- `y[:, :, i]` of a three-dimensional array; `IndexError` when out of range — `gp/multivariate_muygps.py:165,283,380`. -/
def sliceLast (y : Tensor ℝ) (i : Nat) : Res (Tensor ℝ) :=
  match y.shape with
  | [b, n, r] => if i < r then .ok ⟨[b, n], fun k => y.flat (k * r + i)⟩ else .error .index
  | _ => .error .index

/-- `mm.assign(x, v, slice(None), i)` — `_src/math/numpy.py:86-89`: a copy of `x` with column `i` replaced
by `v`. The callers pass `v` of shape `(b,)`. -/
def assignCol (x v : Tensor ℝ) (i : Nat) : Res (Tensor ℝ) :=
  match x.shape with
  | [b, r] =>
    if r ≤ i then .error .index
    else if v.shape = [b] then .ok ⟨[b, r], fun k => if k % r = i then v.flat (k / r) else x.flat k⟩
    else .error .value
  | _ => .error .index

/-- Whether `v` can be broadcast to the shape `(b, n)` — `gp/multivariate_muygps.py:279-285,333-338`. -/
def broadcastsTo2 (v : List Nat) (b n : Nat) : Bool :=
  match v with
  | [] => true
  | [n'] => n' == n || n' == 1
  | [b', n'] => (b' == b || b' == 1) && (n' == n || n' == 1)
  | _ => false

/-- `mm.assign(x, v, slice(None), slice(None), i)`, as far as the callers use it: they drop the
returned copy, so only the errors matter — `gp/multivariate_muygps.py:279-285,333-338`. -/
def assignLastDropped (x v : Tensor ℝ) (i : Nat) : Res Unit :=
  match x.shape with
  | [b, n, r] =>
    if r ≤ i then .error .index
    else if broadcastsTo2 v.shape b n then .ok () else .error .value
  | _ => .error .index

/-- The loop `for i, model in enumerate(self.models): x = mm.assign(x, f(model), slice(None), i)` — `gp/multivariate_muygps.py:157-170,220-230`. -/
def assignEach (f : Trainee → Nat → Res (Tensor ℝ)) (models : List Trainee) (x : Tensor ℝ) :
    Res (Tensor ℝ) :=
  models.zipIdx.foldlM (fun acc mi => do
    let v ← f mi.1 mi.2
    assignCol acc v mi.2) x

/-- One iteration of `MultivariateMuyGPS.posterior_mean` — `gp/multivariate_muygps.py:156-169`. -/
noncomputable def multiMeanOne (bessel : Flt → ℝ → ℝ) (b n : Nat) (pairwise crosswise y : Tensor ℝ)
    (T : Trainee) (i : Nat) : Res (Tensor ℝ) := do
  let Kin ← T.R.kernel.call bessel pairwise []
  let Kcross ← T.R.kernel.call bessel crosswise []
  let yi ← sliceLast y i
  let yi ← yi.reshape [b, n, 1]
  let m ← T.R.gp.posteriorMean Kin Kcross yi
  m.reshape [b]

/-- `MultivariateMuyGPS.posterior_mean` — `gp/multivariate_muygps.py:99-170`. -/
noncomputable def multiPosteriorMean (bessel : Flt → ℝ → ℝ) (models : List Trainee)
    (pairwise crosswise y : Tensor ℝ) : Res (Tensor ℝ) :=
  match y.shape with
  | [b, n, r] => assignEach (multiMeanOne bessel b n pairwise crosswise y) models (zeros [b, r])
  | _ => .error .value

/-- One iteration of `MultivariateMuyGPS.posterior_variance` — `gp/multivariate_muygps.py:219-229`: the
(already scaled) variance of the univariate model times its current scale. -/
noncomputable def multiVarOne (bessel : Flt → ℝ → ℝ) (b : Nat) (pairwise crosswise : Tensor ℝ)
    (T : Trainee) (_i : Nat) : Res (Tensor ℝ) := do
  let Kin ← T.R.kernel.call bessel pairwise []
  let Kcross ← T.R.kernel.call bessel crosswise []
  let v ← T.R.gp.posteriorVariance Kin Kcross
  let v ← v.reshape [b]
  return v.map fun x => x * T.R.gp.scale

/-- `MultivariateMuyGPS.posterior_variance` — `gp/multivariate_muygps.py:172-230`. -/
noncomputable def multiPosteriorVariance (bessel : Flt → ℝ → ℝ) (models : List Trainee)
    (pairwise crosswise : Tensor ℝ) : Res (Tensor ℝ) :=
  match crosswise.shape with
  | [] => .error .index
  | b :: _ => assignEach (multiVarOne bessel b pairwise crosswise) models (zeros [b, models.length])

/-- `MultivariateMuyGPS.fast_coefficients` — `gp/multivariate_muygps.py:232-290`. The value of `mm.assign` is
not used, so the array of zeros is returned. -/
noncomputable def multiFastCoefficients (bessel : Flt → ℝ → ℝ) (models : List Trainee)
    (pairwise y : Tensor ℝ) : Res (Tensor ℝ) :=
  match y.shape with
  | [t, n, r] => do
    let coeffs := zeros [t, n, r]
    models.zipIdx.foldlM (fun (_ : Unit) mi => do
      let Kin ← mi.1.R.kernel.call bessel pairwise []
      let P ← mi.1.R.gp.noise.perturb Kin
      let yi ← sliceLast y mi.2
      let c ← mi.1.R.gp.fastCoefficients P yi
      assignLastDropped coeffs c mi.2) ()
    return coeffs
  | _ => .error .value

/-- `_mmuygps_fast_posterior_mean` — `_src/gp/muygps/numpy.py:80-85`: `einsum("ijk,ijk->ik")`.
Simplification: shapes that differ raise (NumPy broadcasts axes of length one); the only caller passes
equal shapes. -/
noncomputable def mmFastPosteriorMean (Kcross coeffs : Tensor ℝ) : Res (Tensor ℝ) :=
  if Kcross.shape = coeffs.shape then
    match coeffs.shape with
    | [b, n, r] => .ok (Tensor.ofFn [b, r] fun q =>
        ((List.range n).map fun j => Kcross.get [q.getD 0 0, j, q.getD 1 0] * coeffs.get [q.getD 0 0, j, q.getD 1 0]).sum)
    | _ => .error .value
  else .error .value

/-- `MultivariateMuyGPS.fast_posterior_mean` — `gp/multivariate_muygps.py:292-340`. Again the value of
`mm.assign` is not used. -/
noncomputable def multiFastPosteriorMean (bessel : Flt → ℝ → ℝ) (models : List Trainee)
    (crosswise coeffs : Tensor ℝ) : Res (Tensor ℝ) := do
  let Kcross := zeros coeffs.shape
  models.zipIdx.foldlM (fun (_ : Unit) mi => do
    let K ← mi.1.R.kernel.call bessel crosswise []
    assignLastDropped Kcross K mi.2) ()
  mmFastPosteriorMean Kcross coeffs

/-- One iteration of `MultivariateMuyGPS.optimize_scale` — `gp/multivariate_muygps.py:375-382`: the new value
is stored with `scale._set`; the model's functions are not rebuilt. A `nan` estimate is not modelled. -/
noncomputable def multiScaleOne (bessel : Flt → ℝ → ℝ) (b n : Nat) (draws : List (List Nat))
    (pairwise y : Tensor ℝ) (T : Trainee) (i : Nat) : Res Trainee := do
  let Kin ← T.R.kernel.call bessel pairwise []
  let yi ← sliceLast y i
  let yi ← yi.reshape [b, n, 1]
  let s ← scaleOptFn T.scaleKind T.R.gp draws Kin yi []
  match s with
  | none => .error .notImplemented
  | some s => do
    let gp ← T.R.gp.setScale s
    return { T with R := { T.R with gp := gp } }

/-- `MultivariateMuyGPS.optimize_scale` — `gp/multivariate_muygps.py:342-383`. -/
noncomputable def multiOptimizeScale (bessel : Flt → ℝ → ℝ) (models : List Trainee) (draws : List (List Nat))
    (pairwise y : Tensor ℝ) : Res (List Trainee) :=
  match y.shape with
  | [b, n, r] =>
    if r ≠ models.length then .error .value
    else models.zipIdx.mapM fun mi => multiScaleOne bessel b n draws pairwise y mi.1 mi.2
  | _ => .error .value

/-- `MultivariateMuyGPS.make_predict_tensors` — `gp/multivariate_muygps.py:385-446`: those of the first
model. -/
noncomputable def multiPredictTensors (models : List Trainee) (idx nn : Tensor Int) (test train targets : Tensor ℝ) :
    Res (Tensor ℝ × Tensor ℝ × Tensor ℝ) :=
  match models with
  | [] => .error .index
  | T :: _ => makePredictTensors T.R.kernel.deform.kind T.R.kernel.deform.metric idx nn (some test) train targets

/-- `regress_from_indices` for a multi-output model — `examples/from_indices.py:22-39,76-90`. -/
noncomputable def multiRegressFromIndices (bessel : Flt → ℝ → ℝ) (models : List Trainee) (idx nn : Tensor Int)
    (test train targets : Tensor ℝ) : Res (Tensor ℝ × Tensor ℝ) := do
  let t ← multiPredictTensors models idx nn test train targets
  let μ ← multiPosteriorMean bessel models t.2.1 t.1 t.2.2
  let v ← multiPosteriorVariance bessel models t.2.1 t.1
  return (μ, v)

end MuyGPyS
