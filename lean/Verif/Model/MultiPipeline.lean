import Verif.Model.Pipeline
import Verif.Model.Multivariate

/-!
# Model of the end-to-end functions with one model per response: `examples/regress.py:199-400,413-461,463-668`,
`examples/classify.py:182-405,407-602` (no MPI; timings and printing omitted)

A `MultivariateMuyGPS` object is the list of its models (`gp/multivariate_muygps.py:76-97`).
-/

namespace MuyGPyS
open Py

/-- `mmuygps.fixed()` — `gp/multivariate_muygps.py:87-97`: all models are asked. -/
def multiFixed (Ls : List Learner) : Res Bool := do
  let bs ← Ls.mapM fun L => L.gp.fixed
  return bs.all id

/-- `mmuygps.make_train_tensors(…)` — `gp/multivariate_muygps.py:505-511`: that of the first model. -/
noncomputable def multiTrainData (Ls : List Learner) (batch : List Nat × Tensor Int) (X Y : Tensor ℝ) : Res TrainData :=
  match Ls with
  | [] => .error .index
  | L :: _ => L.trainData batch X Y

/-- `batch_targets[:, i].reshape(b, 1)` — `examples/regress.py:352`, `examples/classify.py:333`. -/
def columnOf (t : Tensor ℝ) (i : Nat) : Res (Tensor ℝ) :=
  match t.shape with
  | [b, r] => if i < r then .ok ⟨[b, 1], fun k => t.flat (k * r + i)⟩ else .error .index
  | _ => .error .index

/-- The data response `i` is trained on — `examples/regress.py:350-356`, `examples/classify.py:331-337`; `n` is the argument `nn_count`. -/
noncomputable def TrainData.column (d : TrainData) (n i : Nat) : Res TrainData := do
  let t ← columnOf d.targets i
  let y ← sliceLast d.nnTargets i
  let y ← y.reshape [y.shape.headD 0, n, 1]
  return ⟨d.crosswise, d.pairwise, t, y⟩

/-- The loop over the models — `examples/regress.py:347-364`, `examples/classify.py:329-344`: models with a free hyperparameter are trained. -/
noncomputable def trainEach (opt : Learner → TrainData → Res Learner) (d : TrainData) (n : Nat) (Ls : List Learner) : Res (List Learner) :=
  Ls.zipIdx.mapM fun Li => do
    let fixed ← Li.1.gp.fixed
    if fixed then return Li.1
    else do
      let di ← d.column n Li.2
      opt Li.1 di

/-- One iteration of `MultivariateMuyGPS.optimize_scale` — `gp/multivariate_muygps.py:375-382`, see `multiScaleOne`: `_make` is not
called. A `nan` estimate is not modelled. -/
noncomputable def Learner.scaleOnly (bessel : Flt → ℝ → ℝ) (draws : List (List Nat)) (n : Nat) (pairwise nnTargets : Tensor ℝ)
    (L : Learner) (i : Nat) : Res Learner := do
  let Kin ← L.trainee.R.kernel.call bessel pairwise []
  let y ← sliceLast nnTargets i
  let y ← y.reshape [y.shape.headD 0, n, 1]
  let s ← scaleOptFn L.scaleKind L.trainee.R.gp draws Kin y []
  match s with
  | none => .error .notImplemented
  | some s => if s ≤ 0 then .error .value else return { L with scale := s }

/-- `mmuygps.optimize_scale(pairwise_diffs, batch_nn_targets)` — `gp/multivariate_muygps.py:342-383`; `draws i` is what
`np.random.choice` returns for model `i` (`DownSampleScale` only). -/
noncomputable def multiLearnScale (bessel : Flt → ℝ → ℝ) (draws : Nat → List (List Nat)) (pairwise nnTargets : Tensor ℝ) (Ls : List Learner) :
    Res (List Learner) :=
  match nnTargets.shape with
  | [_, n, r] =>
    if r ≠ Ls.length then .error .value
    else Ls.zipIdx.mapM fun Li => Li.1.scaleOnly bessel (draws Li.2) n pairwise nnTargets Li.2
  | _ => .error .value

/-- `make_multivariate_regressor` — `examples/regress.py:311-389`. -/
noncomputable def makeMultiRegressor (bessel : Flt → ℝ → ℝ) (opt : Learner → TrainData → Res Learner) (draw : List Nat)
    (scaleDraws : Nat → List (List Nat)) (batchCount : Int) (w : NNWrapper) (Ls : List Learner) (Y : Tensor ℝ) : Res (List Learner) :=
  match Y.shape with
  | [N, r] =>
    if r ≠ Ls.length then .error .value
    else do
      let fixed ← multiFixed Ls
      if fixed then return Ls
      else do
        let batch ← sampleBatch w batchCount N draw
        let d ← multiTrainData Ls batch w.train Y
        let Ls' ← trainEach opt d w.nnCount Ls
        multiLearnScale bessel scaleDraws d.pairwise d.nnTargets Ls'
  | _ => .error .value

/-- `make_multivariate_classifier` — `examples/classify.py:290-351`. -/
noncomputable def makeMultiClassifier (opt : Learner → TrainData → Res Learner) (draws : List (List Nat)) (batchCount : Int)
    (w : NNWrapper) (Ls : List Learner) (labels : Tensor ℝ) : Res (List Learner) :=
  match labels.shape with
  | [_, r] =>
    if r ≠ Ls.length then .error .value
    else do
      let fixed ← multiFixed Ls
      if fixed then return Ls
      else do
        let c ← classLabels labels
        let batch ← getBalancedBatch w c batchCount draws
        let d ← multiTrainData Ls batch w.train labels
        trainEach opt d w.nnCount Ls
  | _ => .error .value

/-- The argument `k_kwargs`: a dictionary (one model), a list or a tuple of dictionaries, or something else — `examples/regress.py:416-456`. -/
inductive ModelArgs
  | dict (L : Learner)
  | list (Ls : List Learner)
  | tuple (Ls : List Learner)
  | other

/-- A regressor or classifier: `MuyGPS` or `MultivariateMuyGPS` — `examples/regress.py:416-456`. -/
inductive AnyModel
  | one (L : Learner)
  | multi (Ls : List Learner)

/-- `_decide_and_make_regressor` — `examples/regress.py:425-455`. -/
noncomputable def decideRegressor (bessel : Flt → ℝ → ℝ) (opt : Learner → TrainData → Res Learner) (draw : List Nat)
    (scaleDraws : Nat → List (List Nat)) (batchCount : Int) (w : NNWrapper) (args : ModelArgs) (Y : Tensor ℝ) : Res AnyModel :=
  match args with
  | .list Ls | .tuple Ls => do
    let Ls' ← makeMultiRegressor bessel opt draw scaleDraws batchCount w Ls Y
    return .multi Ls'
  | .dict L => do
    let L' ← makeRegressor bessel opt draw (scaleDraws 0) batchCount w L Y
    return .one L'
  | .other => .error .value

/-- `_decide_and_make_classifier` — `examples/classify.py:365-396`: a tuple is not accepted. -/
noncomputable def decideClassifier (opt : Learner → TrainData → Res Learner) (draws : List (List Nat)) (batchCount : Int)
    (w : NNWrapper) (args : ModelArgs) (labels : Tensor ℝ) : Res AnyModel :=
  match args with
  | .list Ls => do
    let Ls' ← makeMultiClassifier opt draws batchCount w Ls labels
    return .multi Ls'
  | .dict L => do
    let L' ← makeClassifier opt draws batchCount w L labels
    return .one L'
  | .tuple _ | .other => .error .value

/-- `regress_any` for either kind of model — `examples/regress.py:639-662`. -/
noncomputable def regressAnyModel (bessel : Flt → ℝ → ℝ) (M : AnyModel) (w : NNWrapper) (test train targets : Tensor ℝ) :
    Res (Tensor ℝ × Tensor ℝ) :=
  match M with
  | .one L => regressAny bessel L.trainee.R w test train targets
  | .multi Ls =>
    match test.shape with
    | [] => .error .index
    | m :: _ => do
      let nn ← w.getNns test
      multiRegressFromIndices bessel (Ls.map Learner.trainee) (arange m) nn.1 test train targets

/-- `do_regress` — `examples/regress.py:577-599`. -/
noncomputable def doRegressModel (bessel : Flt → ℝ → ℝ) (opt : Learner → TrainData → Res Learner) (draw : List Nat)
    (scaleDraws : Nat → List (List Nat)) (batchCount : Int) (w : NNWrapper) (args : ModelArgs) (test Y : Tensor ℝ) :
    Res (AnyModel × Tensor ℝ × Tensor ℝ) := do
  let M ← decideRegressor bessel opt draw scaleDraws batchCount w args Y
  let r ← regressAnyModel bessel M w test w.train Y
  return (M, r.1, r.2)

/-- `posterior_mean_from_indices` for several models — `examples/from_indices.py:22-56`. -/
noncomputable def multiMeanFromIndices (bessel : Flt → ℝ → ℝ) (models : List Trainee) (idx nn : Tensor Int)
    (test train targets : Tensor ℝ) : Res (Tensor ℝ) := do
  let t ← multiPredictTensors models idx nn test train targets
  multiPosteriorMean bessel models t.2.1 t.1 t.2.2

/-- `do_classify` — `examples/classify.py:512-534`. -/
noncomputable def doClassifyModel (bessel : Flt → ℝ → ℝ) (opt : Learner → TrainData → Res Learner) (draws : List (List Nat))
    (batchCount : Int) (w : NNWrapper) (args : ModelArgs) (test labels : Tensor ℝ) : Res (AnyModel × Tensor ℝ) := do
  let M ← decideClassifier opt draws batchCount w args labels
  let p ← match M with
    | .one L => classifyAny (fun idx nn => posteriorMeanFromIndices bessel L.trainee.R idx nn test w.train labels) w test labels
    | .multi Ls => classifyAny (fun idx nn => multiMeanFromIndices bessel (Ls.map Learner.trainee) idx nn test w.train labels) w test labels
  return (M, p)

end MuyGPyS
