import Verif.Model.DeepKernel
import Verif.Model.Multivariate

/-!
# Model of deep kernels with one Gaussian process per response: `torch/multivariate_muygps_layer.py`,
`examples/muygps_torch.py` (`predict_multiple_model`, `predict_model`, and the training with such a layer)

As `Model/DeepKernel`, with a `MultivariateMuyGPs_layer` instead of a `MuyGPs_layer`. The layer registers no parameter with torch
(`torch/multivariate_muygps_layer.py:99-121`: the models are kept in a plain Python object, no length scale is assigned to the module), so
the optimiser only sees the parameters of the embedding: `step` is the optimiser's step on those.
-/

namespace MuyGPyS
namespace Deep
open Py

/-- `MultivariateMuyGPs_layer` after construction — `torch/multivariate_muygps_layer.py:99-121`. -/
structure MultiLayer where
  models : List Trainee
  batch : Tensor Int
  nn : Tensor Int
  targets : Tensor ℝ
  nnTargets : Tensor ℝ

/-- `MultivariateMuyGPs_layer.__init__` — `torch/multivariate_muygps_layer.py:99-121`: reads `models[0]`. -/
def MultiLayer.create (models : List Trainee) (batch nn : Tensor Int) (targets nnTargets : Tensor ℝ) : Res MultiLayer :=
  match models with
  | [] => .error .index
  | _ :: _ => .ok ⟨models, batch, nn, targets, nnTargets⟩

/-- `MultivariateMuyGPs_layer.forward(x)` — `torch/multivariate_muygps_layer.py:123-155`; the deformation is that of the first model
(lines 114-116). -/
noncomputable def MultiLayer.forward (bessel : Flt → ℝ → ℝ) (l : MultiLayer) (x : Tensor ℝ) : Res (Tensor ℝ × Tensor ℝ) :=
  match l.models with
  | [] => .error .index
  | T :: _ => do
    let cross ← T.R.kernel.deform.crosswise x x l.batch l.nn
    let pair ← T.R.kernel.deform.pairwise x l.nn
    let v ← multiPosteriorVariance bessel l.models pair cross
    let μ ← multiPosteriorMean bessel l.models pair cross l.nnTargets
    return (μ, v)

/-- The user's module with such a layer; see `Module` — `torch/multivariate_muygps_layer.py:99-120`. -/
structure MultiModule (Θ : Type) where
  θ : Θ
  layer : MultiLayer
  training : Bool
  attrNN : Option (Tensor Int)
  attrTargets : Option (Tensor ℝ)
  tick : Nat

/-- `model.embedding(x)` outside the objective; see `Module.embedding` — `examples/muygps_torch.py:178-179,448-468`. -/
def MultiModule.embedding {Θ S : Type} (env : Env Θ S) (m : MultiModule Θ) (x : Tensor ℝ) : Tensor ℝ × MultiModule Θ :=
  (env.embed m.training m.tick m.θ x, if m.training then { m with tick := m.tick + 1 } else m)

/-- The loss as a function of the registered parameters — `examples/muygps_torch.py:416-428`. -/
noncomputable def multiObjective {Θ S : Type} (env : Env Θ S) (loss : Tensor ℝ → Tensor ℝ → Tensor ℝ → Res ℝ) (m : MultiModule Θ)
    (x batchResponses : Tensor ℝ) (θ : Θ) : Res ℝ := do
  let r ← m.layer.forward env.bessel (env.embed m.training m.tick θ x)
  loss r.1 batchResponses r.2

/-- `update_nearest_neighbors` — `examples/muygps_torch.py:521-540` and the same statements in the training; see `refresh`. -/
noncomputable def multiRefresh {Θ S : Type} (env : Env Θ S) (m : MultiModule Θ) (train responses : Tensor ℝ) (batch : Tensor Int) (nnCount : Nat) :
    Res (NNWrapper × MultiModule Θ) := do
  let bf ← train.take batch
  let e := m.embedding env train
  let w ← env.build e.1 nnCount
  let e2 := e.2.embedding env bf
  let q ← w.query e2.1 nnCount
  let t ← responses.take q.1
  return (w, { e2.2 with attrNN := some q.1, attrTargets := some t })

/-- One iteration of the loop — `examples/muygps_torch.py:413-449`. -/
noncomputable def multiIteration {Θ S : Type} (env : Env Θ S) (step : S → Θ → (Θ → Res ℝ) → S × Θ)
    (loss : Tensor ℝ → Tensor ℝ → Tensor ℝ → Res ℝ) (train responses : Tensor ℝ)
    (batch : Tensor Int) (batchResponses : Tensor ℝ) (nnCount u : Nat) (ms : MultiModule Θ × S) (i : Nat) : Res (MultiModule Θ × S) := do
  let m := { ms.1 with training := true }
  let obj := multiObjective env loss m train batchResponses
  let _ ← obj m.θ
  let r := step ms.2 m.θ obj
  let m := { m with θ := r.2, tick := m.tick + 1 }
  if npMod i u = 0 then do
    let q ← multiRefresh env { m with training := false } train responses batch nnCount
    return (q.2, r.1)
  else return (m, r.1)

/-- `train_deep_kernel_muygps` with such a layer — `examples/muygps_torch.py:285-463`; also returns the optimiser state. -/
noncomputable def trainMultiDeep {Θ S : Type} (env : Env Θ S) (step : S → Θ → (Θ → Res ℝ) → S × Θ) (m : MultiModule Θ) (s : S)
    (train responses : Tensor ℝ) (batch : Tensor Int) (w : NNWrapper) (iterations : Nat) (lossName : String) (u : Nat) :
    Res (NNWrapper × MultiModule Θ × S) := do
  let _ ← train.take batch
  let br ← responses.take batch
  let loss ← lossOf env lossName
  let r ← (List.range iterations).foldlM (multiIteration env step loss train responses batch br w.nnCount u) (m, s)
  let q ← multiRefresh env r.1 train responses batch w.nnCount
  return (q.1, q.2, r.2)

/-- `predict_multiple_model` — `examples/muygps_torch.py:132-211`. -/
noncomputable def predictMultiple {Θ S : Type} (env : Env Θ S) (m : MultiModule Θ) (test train responses : Tensor ℝ) (w : NNWrapper)
    (nnCount : Nat) : Res (Tensor ℝ × Tensor ℝ) :=
  let e := m.embedding env train
  let e2 := e.2.embedding env test
  match e2.1.shape with
  | [] => .error .index
  | k :: _ => do
    let nn ← w.query e2.1 nnCount
    multiRegressFromIndices env.bessel m.layer.models (arange k) nn.1 e2.1 e.1 responses

/-- A module with either layer — `examples/muygps_torch.py:214-296`. -/
inductive AnyModule (Θ : Type)
  | single (m : Module Θ)
  | multiple (m : MultiModule Θ)

/-- `predict_model` — `examples/muygps_torch.py:214-294`. -/
noncomputable def predictModel {Θ S : Type} (env : Env Θ S) (m : AnyModule Θ) (test train responses : Tensor ℝ) (w : NNWrapper)
    (nnCount : Nat) : Res (Tensor ℝ × Tensor ℝ) :=
  match m with
  | .single m => predictSingle env m test train responses w nnCount
  | .multiple m => predictMultiple env m test train responses w nnCount

end Deep
end MuyGPyS
