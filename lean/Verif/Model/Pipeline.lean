import Verif.Model.Train
import Verif.Model.Workflow
import Verif.Model.Classify

/-!
# Model of the end-to-end functions: `examples/regress.py:117-196,463-668`, `examples/classify.py:128-179,462-534`
(univariate models, no MPI; timings and printing omitted)

The neighbour lookup `NN_Wrapper(train_features, nn_count, **nn_kwargs)` is the wrapper `w` (so the training features are
`w.train`), and the model `MuyGPS(**k_kwargs)` is the learner `L`. `opt` stands for `opt_fn(…, loss_fn=…, **opt_kwargs)`.
-/

namespace MuyGPyS
open Py

/-- `muygps.make_train_tensors(batch_indices, batch_nn_indices, train_features, train_targets)` of a batch — `gp/muygps.py:478-551`. -/
noncomputable def Learner.trainData (L : Learner) (batch : List Nat × Tensor Int) (X Y : Tensor ℝ) : Res TrainData := do
  let t ← makeTrainTensors L.deform.kind L.deform.metric (ofNats batch.1) batch.2 X Y
  return ⟨t.1, t.2.1, t.2.2.1, t.2.2.2⟩

/-- `make_regressor` — `examples/regress.py:131-196`; `draw` is what `np.random.choice` returns in `sample_batch`, `scaleDraws`
what it returns in `optimize_scale` (`DownSampleScale` only). -/
noncomputable def makeRegressor (bessel : Flt → ℝ → ℝ) (opt : Learner → TrainData → Res Learner) (draw : List Nat)
    (scaleDraws : List (List Nat)) (batchCount : Int) (w : NNWrapper) (L : Learner) (Y : Tensor ℝ) : Res Learner := do
  let fixed ← L.gp.fixed
  if fixed then return L
  else do
    let batch ← sampleBatch w batchCount w.N draw
    let d ← L.trainData batch w.train Y
    let L' ← opt L d
    L'.optimizeScale bessel scaleDraws d.pairwise d.nnTargets

/-- `do_regress` with keyword arguments for one model — `examples/regress.py:577-599`; returns the model, the means and the
variances. -/
noncomputable def doRegress (bessel : Flt → ℝ → ℝ) (opt : Learner → TrainData → Res Learner) (draw : List Nat)
    (scaleDraws : List (List Nat)) (batchCount : Int) (w : NNWrapper) (L : Learner) (test Y : Tensor ℝ) :
    Res (Learner × Tensor ℝ × Tensor ℝ) := do
  let L' ← makeRegressor bessel opt draw scaleDraws batchCount w L Y
  let r ← regressAny bessel L'.trainee.R w test w.train Y
  return (L', r.1, r.2)

/-- `np.argmax(train_labels, axis=1)` as an array; an array without second axis or without columns is an error — `examples/classify.py:145`. -/
noncomputable def classLabels (labels : Tensor ℝ) : Res (Tensor ℝ) :=
  match labels.shape with
  | [N, r] => if r = 0 then .error .value else .ok ⟨[N], fun i => ((argmaxRows labels N r).getD i 0 : ℕ)⟩
  | _ => .error .value

/-- `make_classifier` — `examples/classify.py:128-179`. Unlike `make_regressor` it does not estimate the variance scale. -/
noncomputable def makeClassifier (opt : Learner → TrainData → Res Learner) (draws : List (List Nat)) (batchCount : Int)
    (w : NNWrapper) (L : Learner) (labels : Tensor ℝ) : Res Learner := do
  let fixed ← L.gp.fixed
  if fixed then return L
  else do
    let c ← classLabels labels
    let batch ← getBalancedBatch w c batchCount draws
    let d ← L.trainData batch w.train labels
    opt L d

/-- `do_classify` with keyword arguments for one model — `examples/classify.py:512-534`; returns the model and the surrogate
predictions. -/
noncomputable def doClassify (bessel : Flt → ℝ → ℝ) (opt : Learner → TrainData → Res Learner) (draws : List (List Nat))
    (batchCount : Int) (w : NNWrapper) (L : Learner) (test labels : Tensor ℝ) : Res (Learner × Tensor ℝ) := do
  let L' ← makeClassifier opt draws batchCount w L labels
  let p ← classifyAny (fun idx nn => posteriorMeanFromIndices bessel L'.trainee.R idx nn test w.train labels) w test labels
  return (L', p)

end MuyGPyS
