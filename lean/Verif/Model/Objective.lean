import Verif.Model.Workflow
import Verif.Model.Scale
import Verif.Model.Loss

/-!
# Model of the optimisation objective: `optimize/objective.py:19-117`, `optimize/loss.py:22-178`,
`optimize/chassis.py:47-198`, `_src/optimize/chassis/numpy.py:37-42` (numpy backend, univariate model)
-/

namespace MuyGPyS
open Py

/-- The scale hyperparameter classes — `gp/hyperparameter/scale.py`: `FixedScale`,
`AnalyticScale(iteration_count)`, `DownSampleScale(down_count, …)` — `gp/hyperparameter/scale.py:118-292`. -/
inductive ScaleKind
  | fixed
  | analytic (iterationCount : Nat)
  | downSample (downCount : Nat)

/-- A univariate model as the optimiser sees it — `gp/muygps.py:93-126`. -/
structure Trainee where
  R : Regressor
  scaleKind : ScaleKind

/-- `muygps.scale.get_opt_fn(muygps)(Kin, nn_targets, **kwargs)` — `gp/hyperparameter/scale.py:130-145,
172-219,255-293`. `draws` lists what `np.random.choice` returns during the call (used by
`DownSampleScale` only). The hyperparameters passed as keywords are not used. `none` is `nan`. -/
noncomputable def scaleOptFn (kind : ScaleKind) (gp : MuyGPS) (draws : List (List Nat)) (Kin nnTargets : Tensor ℝ)
    (_kw : Dict Flt) : Res (Option ℝ) :=
  match kind with
  | .fixed => .ok (some gp.scale)
  | .analytic n => do
    let s ← analyticOpt gp.noise n Kin nnTargets
    return some s
  | .downSample d => downSampleOpt gp.noise d draws Kin nnTargets

/-- The predefined losses — `optimize/loss.py:217-420`; `ε` is scikit-learn's clipping constant, `δ` the
boundary scale passed in `loss_kwargs`. -/
inductive LossKind
  | crossEntropy (ε : ℝ) | mse | pseudoHuber (δ : ℝ)
  | lool | loolUnscaled | looph (δ : ℝ)

/-- The losses built with `make_raw_predict_and_loss_fn`; the others use `make_var_predict_and_loss_fn` — `optimize/loss.py:215-360`. -/
def LossKind.raw : LossKind → Bool
  | .crossEntropy _ | .mse | .pseudoHuber _ => true
  | _ => false

/-- The entries of an array in row-major order — `_src/optimize/loss/numpy.py:22-110`. -/
def entries {α : Type} (t : Tensor α) : List α := (List.range t.shape.prod).map t.flat

/-- The rows of a matrix — `_src/optimize/loss/numpy.py:22-110`. -/
def matRows {α : Type} (b r : Nat) (t : Tensor α) : List (List α) :=
  (List.range b).map fun i => (List.range r).map fun j => t.get [i, j]

/-- `loss_fn(predictions, targets, **loss_kwargs)` of a raw loss. Simplification: predictions and
targets of different shape raise (NumPy may broadcast) — `optimize/loss.py:84-97`. -/
noncomputable def LossKind.runRaw (l : LossKind) (pred targ : Tensor ℝ) : Res ℝ :=
  if pred.shape = targ.shape then
    match l with
    | .mse => Loss.mse (entries pred) (entries targ)
    | .pseudoHuber δ => Loss.pseudoHuber (entries pred) (entries targ) δ
    | .crossEntropy ε =>
      match pred.shape with
      | [b, r] => Loss.crossEntropy ε ((matRows b r pred).zip (matRows b r targ))
      | _ => .error .value
    | _ => .error .type
  else .error .value

/-- `np.sum(term(d, variances))` for `d` with two axes and one-dimensional variances: NumPy broadcasting puts an axis of
length one in front of the variances, so they run along the *second* axis of `d` — `_src/optimize/loss/numpy.py:34-110`. -/
noncomputable def broadcastSum (term : ℝ → ℝ → ℝ) (d var : Tensor ℝ) : Res ℝ := do
  let e ← Tensor.bop term d ⟨1 :: var.shape, var.flat⟩
  return (entries e).sum

/-- `loss_fn(predictions, targets, variances, scale, **loss_kwargs)` of a variance loss with one-dimensional variances —
`_src/optimize/loss/numpy.py:34-44,54-61,75-117`, `optimize/loss.py:157-178`. Predictions and targets have one axis, or two
(one per response, also when there is a single response). `lool_fn_unscaled` takes three positional arguments only:
`TypeError`. A `nan` scale gives `nan`. Simplification: predictions and targets of different shape raise. -/
noncomputable def LossKind.runVar (l : LossKind) (pred targ var : Tensor ℝ) (scale : Option ℝ) :
    Res (Option ℝ) :=
  match l with
  | .loolUnscaled => .error .type
  | .lool | .looph _ =>
    if pred.shape = targ.shape ∧ pred.shape = var.shape ∧ pred.shape.length = 1 then
      match scale with
      | none => .ok none
      | some s => do
        let x ← (match l with
          | .looph δ => Loss.looph (entries pred) (entries targ) (entries var) s δ
          | _ => Loss.lool (entries pred) (entries targ) (entries var) s)
        return some x
    else if pred.shape = targ.shape ∧ pred.shape.length = 2 ∧ var.shape.length = 1 then
      match scale with
      | none => .ok none
      | some s => do
        let d ← Tensor.zipWith (fun p t => p - t) pred targ
        let x ← (match l with
          | .looph δ => broadcastSum (fun d v => Loss.loophTerm d 0 (s * v) δ) d var
          | _ => broadcastSum (fun d v => Loss.loolTerm d 0 (s * v)) d var)
        return some x
    else .error .value
  | _ => .error .type

/-- `predictions[:, target_mask]`: `IndexError` for one-dimensional predictions and for columns out of
range (negative indices not modelled) — `optimize/loss.py:92,171`. -/
def maskColumns {α : Type} (mask : Option (List Nat)) (t : Tensor α) : Res (Tensor α) :=
  match mask with
  | none => .ok t
  | some m =>
    match t.shape with
    | [b, r] =>
      if ∀ c ∈ m, c < r then
        .ok (Tensor.ofFn [b, m.length] fun i => t.get [i.getD 0 0, m.getD (i.getD 1 0) 0])
      else .error .index
    | _ => .error .index

/-- `variances[:, target_mask, target_mask]`: three indices into the one-dimensional variances of a
univariate model are an `IndexError` — `optimize/loss.py:172`. -/
def maskVariances {α : Type} (mask : Option (List Nat)) (t : Tensor α) : Res (Tensor α) :=
  match mask with
  | none => .ok t
  | some _ => if t.shape.length < 3 then .error .index else .error .notImplemented

/-- `predict_and_loss_fn(Kin, Kcross, **kwargs)` — `optimize/loss.py:79-91` (raw) and `:157-178`
(variance). -/
noncomputable def predictAndLoss (T : Trainee) (l : LossKind) (mask : Option (List Nat))
    (draws : List (List Nat)) (nnTargets targets Kin Kcross : Tensor ℝ) (kw : Dict Flt) : Res (Option ℝ) :=
  let noiseKw := (Dict.get? kw "noise").map Flt.toReal
  if l.raw then do
    let pred ← T.R.gp.optMean Kin Kcross nnTargets noiseKw
    let pred ← maskColumns mask pred
    let x ← l.runRaw pred targets
    return some (-x)
  else do
    let pred ← T.R.gp.optMean Kin Kcross nnTargets noiseKw
    let scale ← scaleOptFn T.scaleKind T.R.gp draws Kin nnTargets kw
    let var ← T.R.gp.optVariance Kin Kcross noiseKw
    let pred ← maskColumns mask pred
    let var ← maskVariances mask var
    let x ← l.runVar pred targets var scale
    return x.map fun x => -x

/-- `obj_fn(**kwargs)` as made by `make_loo_crossval_fn` — `optimize/objective.py:87-117`,
`optimize/chassis.py:176-198`. The kernel function gets the extra keyword `batch_features`, whose
value (an array or `None`) no univariate kernel with scalar or vector parameters reads. -/
noncomputable def objFn (bessel : Flt → ℝ → ℝ) (T : Trainee) (l : LossKind) (mask : Option (List Nat))
    (draws : List (List Nat)) (pairwise crosswise nnTargets targets : Tensor ℝ) (kw : Dict Flt) :
    Res (Option ℝ) := do
  let Kin ← T.R.kernel.optFn bessel pairwise (("batch_features", none) :: kw)
  let Kcross ← T.R.kernel.optFn bessel crosswise (("batch_features", none) :: kw)
  predictAndLoss T l mask draws nnTargets targets Kin Kcross kw

/-- `array_obj_fn(x_array)` made by `_obj_fn_adapter` — `_src/optimize/chassis/numpy.py:37-42`: missing
components are an `IndexError`. -/
noncomputable def arrayObjFn (obj : Dict Flt → Res (Option ℝ)) (names : List String) (x : List Flt) :
    Res (Option ℝ) :=
  if x.length < names.length then .error .index
  else do
    let v ← obj (names.zip x)
    return v.map fun v => -v

end MuyGPyS
