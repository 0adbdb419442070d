import Verif.Model.Pipeline

/-!
# Model of `do_classify_uq`: `examples/two_class_classify_uq.py:63-249,426-524`
(univariate model as `make_classifier` builds it, no MPI; timings and printing omitted)

Naming as in `Model/Pipeline`: `w` is the neighbour lookup of the training features, `L` the model `MuyGPS(**k_kwargs)`, `opt` the
optimiser with its arguments.
-/

namespace MuyGPyS
open Py

/-- `(np.min(train_labels[0, :]) + np.max(train_labels[0, :])) / 2` — `examples/two_class_classify_uq.py:212-214`. -/
noncomputable def midValue (labels : Tensor ℝ) : Res ℝ :=
  match labels.shape with
  | [N, r] =>
    if N = 0 then .error .index else
    let row := (List.range r).map fun c => labels.get [0, c]
    match row.min?, row.max? with
    | some lo, some hi => .ok ((lo + hi) / 2)
    | _, _ => .error .value
  | _ => .error .index

/-- `2 * np.argmax(train_labels, axis=1) - 1` — `examples/two_class_classify_uq.py:217`. -/
noncomputable def signedLabels (labels : Tensor ℝ) : Res (Tensor ℝ) := do
  let c ← classLabels labels
  return ⟨c.shape, fun i => 2 * c.flat i - 1⟩

/-- `train_two_class_interval` — `examples/two_class_classify_uq.py:426-524`. -/
noncomputable def trainTwoClassInterval (bessel : Flt → ℝ → ℝ) (R : Regressor) (batch : List Nat × Tensor Int)
    (train responses labels : Tensor ℝ) (objectives : List (List (Option ℝ) → List (Option ℝ) → Nat → Nat → Nat)) : Res (List ℝ) := do
  let targets ← labels.take (ofNats batch.1)
  let p ← regressFromIndices bessel R (ofNats batch.1) batch.2 train train responses
  trainCutoffs batch.1.length p.1 p.2 ((List.range batch.1.length).map fun i => targets.get [i]) objectives

/-- `do_classify_uq` — `examples/two_class_classify_uq.py:183-248`; `draws` are the batch draws of the training, `uqDraws` those of
the calibration. Returns the model, the surrogate predictions and the masks (the lookup is `w`). -/
noncomputable def doClassifyUq (bessel : Flt → ℝ → ℝ) (opt : Learner → TrainData → Res Learner) (draws uqDraws : List (List Nat))
    (batchCount uqBatchCount : Int) (objectives : List (List (Option ℝ) → List (Option ℝ) → Nat → Nat → Nat))
    (w : NNWrapper) (L : Learner) (test labels : Tensor ℝ) : Res (Learner × Tensor ℝ × List (List Bool)) := do
  let L' ← makeClassifier opt draws batchCount w L labels
  let p ← classifyTwoClassUq (fun idx nn => regressFromIndices bessel L'.trainee.R idx nn test w.train labels) w test labels
  let mid ← midValue labels
  let signed ← signedLabels labels
  let batch ← getBalancedBatch w signed uqBatchCount uqDraws
  let cutoffs ← trainTwoClassInterval bessel L'.trainee.R batch w.train labels signed objectives
  let masks ← makeMasks p.1 cutoffs p.2 mid
  return (L', p.1, masks)

end MuyGPyS
