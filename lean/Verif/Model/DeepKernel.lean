import Verif.Model.Workflow
import Verif.Model.Neighbors
import Verif.Model.Backends

/-!
# Model of deep kernel training and prediction: `examples/muygps_torch.py`, `torch/muygps_layer.py`

The user's `torch.nn.Module` is the one of the documentation and the tests (`tests/torch/torch_api.py:206-246`):
an `embedding`, a `GP_layer : MuyGPs_layer`, and `forward(x) = GP_layer(embedding(x))`.

What is arbitrary here: the embedding (any function of its parameters and input; in training mode it may also
depend on random draws, counted by `tick`: dropout), the optimiser and learning rate schedule (any function of the
optimiser state, the registered parameters and the loss as a function of those), the losses `mse`, `bce`, `ce`
of `torch.nn`, and the nearest-neighbour construction with its `nn_kwargs`.

Simplifications: 32-bit rounding, printing and CUDA calls are not modelled; `loss_function` is given in lower case;
`model.embedding is None` is not modelled. Difference tensors are the NumPy ones, which the torch ones equal on feature
tables (`C53_difference_tensors`). The layer's `_make()` re-binds functions that read the parameters when called
(`gp/muygps.py:113-130`), so it changes nothing that is modelled.
-/

namespace MuyGPyS
namespace Deep
open Py

/-- `MuyGPs_layer` after construction — `torch/muygps_layer.py:99-130`. The regressor is the `MuyGPS` object, whose
kernel and noise stay outside torch's module tree. -/
structure Layer where
  R : Regressor
  batch : Tensor Int
  nn : Tensor Int
  targets : Tensor ℝ
  nnTargets : Tensor ℝ

/-- The length scale of the layer's deformation; `none` for deformations the layer refuses — `torch/muygps_layer.py:108-123`. -/
def lengthParam (R : Regressor) : Option Param :=
  match R.kernel.deform with
  | .isotropy _ p => some p
  | .difference _ p => some p
  | .anisotropy _ _ => none

/-- `MuyGPs_layer.__init__` — `torch/muygps_layer.py:99-130`: only isotropic deformations (`DifferenceIsotropy` is a
subclass of `Isotropy`). -/
def Layer.create (R : Regressor) (batch nn : Tensor Int) (targets nnTargets : Tensor ℝ) : Res Layer :=
  match lengthParam R with
  | none => .error .notImplemented
  | some _ => .ok ⟨R, batch, nn, targets, nnTargets⟩

/-- The `nn.Parameter` registered by `self.length_scale = …length_scale._val` (`torch/muygps_layer.py:125`) is the
value inside the model's `ScalarParam`: an optimiser step writes into it. Nothing else of the `MuyGPS` object is
registered. The bounds and the fixed flag are not consulted. -/
def setLength (R : Regressor) (v : Flt) : Regressor :=
  { R with kernel := { R.kernel with deform :=
      match R.kernel.deform with
      | .isotropy m p => .isotropy m { p with val := v }
      | .difference m p => .difference m { p with val := v }
      | .anisotropy m ps => .anisotropy m ps } }

/-- `MuyGPs_layer.forward(x)` — `torch/muygps_layer.py:132-167`. -/
noncomputable def Layer.forward (bessel : Flt → ℝ → ℝ) (l : Layer) (x : Tensor ℝ) : Res (Tensor ℝ × Tensor ℝ) := do
  let cross ← l.R.kernel.deform.crosswise x x l.batch l.nn
  let pair ← l.R.kernel.deform.pairwise x l.nn
  let Kcross ← l.R.kernel.call bessel cross []
  let Kin ← l.R.kernel.call bessel pair []
  let μ ← l.R.gp.posteriorMean Kin Kcross l.nnTargets
  let v ← l.R.gp.posteriorVariance Kin Kcross
  return (μ, v)

/-- The user's module: embedding parameters, the layer, torch's training flag, the attributes `batch_nn_indices` and
`batch_nn_targets` of the *module* (`examples/muygps_torch.py:446-447,461-462,538-539`), and the number of random draws made. -/
structure Module (Θ : Type) where
  θ : Θ
  layer : Layer
  training : Bool
  attrNN : Option (Tensor Int)
  attrTargets : Option (Tensor ℝ)
  tick : Nat

/-- The tensors registered with torch (`model.parameters()`): the embedding's and the length scale — `torch/muygps_layer.py:107-127`. -/
abbrev Params (Θ : Type) := Θ × Flt

/-- `model.parameters()` — `torch/muygps_layer.py:125`. -/
def Module.params {Θ : Type} (m : Module Θ) : Option (Params Θ) :=
  (lengthParam m.layer.R).map fun p => (m.θ, p.val)

/-- Writing registered parameters (`optimizer.step()`) — `examples/muygps_torch.py:437`. -/
def Module.setParams {Θ : Type} (m : Module Θ) (p : Params Θ) : Module Θ :=
  { m with θ := p.1, layer := { m.layer with R := setLength m.layer.R p.2 } }

/-- What the training function is given besides the data — `examples/muygps_torch.py:297-320`. -/
structure Env (Θ S : Type) where
  bessel : Flt → ℝ → ℝ
  /-- `model.embedding` in training (`true`) or evaluation mode, with the random draw number. -/
  embed : Bool → Nat → Θ → Tensor ℝ → Tensor ℝ
  /-- `NN_Wrapper(features, nn_count, **nn_kwargs)` -/
  build : Tensor ℝ → Nat → Res NNWrapper
  mse : Tensor ℝ → Tensor ℝ → Res ℝ
  bce : Tensor ℝ → Tensor ℝ → Res ℝ
  ce : Tensor ℝ → Tensor ℝ → Res ℝ
  /-- `optimizer.step(); scheduler.step()` after `backward()` -/
  step : S → Params Θ → (Params Θ → Res ℝ) → S × Params Θ

/-- A tensor with axes of length one put in front up to rank `k` (broadcasting of different ranks) — `examples/muygps_torch.py:415-435` (broadcasting inside the losses). -/
def padTo (k : Nat) (t : Tensor ℝ) : Tensor ℝ := ⟨List.replicate (k - t.shape.length) 1 ++ t.shape, t.flat⟩

/-- Elementwise operation with broadcasting of different ranks — `examples/muygps_torch.py:415-435` (broadcasting inside the losses). -/
def bopPad (f : ℝ → ℝ → ℝ) (a b : Tensor ℝ) : Res (Tensor ℝ) :=
  let k := max a.shape.length b.shape.length
  Tensor.bop f (padTo k a) (padTo k b)

/-- `_lool_fn_unscaled` of torch followed by `.sum()` — `_src/optimize/loss/torch.py:47-65` (variances of rank other than
three), `examples/muygps_torch.py:419-427`. -/
noncomputable def loolSum (p t v : Tensor ℝ) : Res ℝ := do
  let d ← bopPad (fun p t => (p - t) ^ 2) p t
  let q ← bopPad (· / ·) d v
  let e ← bopPad (fun q v => q + Real.log v) q v
  return ∑ k ∈ Finset.range e.shape.prod, e.flat k

/-- The choice of the loss — `examples/muygps_torch.py:401-411`, and its call, lines 418-428. -/
noncomputable def lossOf {Θ S : Type} (env : Env Θ S) (name : String) :
    Res (Tensor ℝ → Tensor ℝ → Tensor ℝ → Res ℝ) :=
  if name = "mse" then .ok fun p t _ => env.mse p t
  else if name = "bce" then .ok fun p t _ => env.bce p t
  else if name = "ce" then .ok fun p t _ => env.ce p t
  else if name = "lool" then .ok fun p t v => loolSum p.squeeze t.squeeze v.squeeze
  else .error .value

/-- `model.embedding(x)` outside the objective: in training mode it consumes a random draw — `examples/muygps_torch.py:95-96,448-468`. -/
def Module.embedding {Θ S : Type} (env : Env Θ S) (m : Module Θ) (x : Tensor ℝ) : Tensor ℝ × Module Θ :=
  (env.embed m.training m.tick m.θ x, if m.training then { m with tick := m.tick + 1 } else m)

/-- The loss as a function of the registered parameters, `model(train_features)` then the loss —
`examples/muygps_torch.py:415-428`. -/
noncomputable def objective {Θ S : Type} (env : Env Θ S) (loss : Tensor ℝ → Tensor ℝ → Tensor ℝ → Res ℝ) (m : Module Θ)
    (x batchResponses : Tensor ℝ) (p : Params Θ) : Res ℝ := do
  let m' := m.setParams p
  let r ← m'.layer.forward env.bessel (env.embed m'.training m'.tick m'.θ x)
  loss r.1 batchResponses r.2

/-- `update_nearest_neighbors` — `examples/muygps_torch.py:521-540`; the same statements are lines 437-447 and 450-462. -/
noncomputable def refresh {Θ S : Type} (env : Env Θ S) (m : Module Θ) (train responses : Tensor ℝ) (batch : Tensor Int) (nnCount : Nat) :
    Res (NNWrapper × Module Θ) := do
  let bf ← train.take batch
  let e := m.embedding env train
  let w ← env.build e.1 nnCount
  let e2 := e.2.embedding env bf
  let q ← w.query e2.1 nnCount
  let t ← responses.take q.1
  return (w, { e2.2 with attrNN := some q.1, attrTargets := some t })

/-- `np.mod(i, u)` on integers: zero (with a warning) for `u = 0` — `examples/muygps_torch.py:440`. -/
def npMod (i u : Nat) : Nat := if u = 0 then 0 else i % u

/-- One iteration of the loop — `examples/muygps_torch.py:413-449`. -/
noncomputable def iteration {Θ S : Type} (env : Env Θ S) (loss : Tensor ℝ → Tensor ℝ → Tensor ℝ → Res ℝ) (train responses : Tensor ℝ)
    (batch : Tensor Int) (batchResponses : Tensor ℝ) (nnCount u : Nat) (ms : Module Θ × S) (i : Nat) : Res (Module Θ × S) := do
  let m := { ms.1 with training := true }
  match m.params with
  | none => .error .attribute
  | some p => do
    let obj := objective env loss m train batchResponses
    let _ ← obj p
    let r := env.step ms.2 p obj
    let m := { m.setParams r.2 with tick := m.tick + 1 }
    if npMod i u = 0 then do
      let q ← refresh env { m with training := false } train responses batch nnCount
      return (q.2, r.1)
    else return (m, r.1)

/-- `train_deep_kernel_muygps` — `examples/muygps_torch.py:285-463`; also returns the optimiser state. -/
noncomputable def trainDeep {Θ S : Type} (env : Env Θ S) (m : Module Θ) (s : S) (train responses : Tensor ℝ) (batch : Tensor Int)
    (w : NNWrapper) (iterations : Nat) (lossName : String) (u : Nat) : Res (NNWrapper × Module Θ × S) := do
  let _ ← train.take batch
  let br ← responses.take batch
  let loss ← lossOf env lossName
  let r ← (List.range iterations).foldlM (iteration env loss train responses batch br w.nnCount u) (m, s)
  let q ← refresh env r.1 train responses batch w.nnCount
  return (q.1, q.2, r.2)

/-- `predict_single_model` — `examples/muygps_torch.py:50-132`: `regress_any` on the embedded features, with the given
number of neighbours. (In training mode the two embeddings use different draws.) -/
noncomputable def predictSingle {Θ S : Type} (env : Env Θ S) (m : Module Θ) (test train responses : Tensor ℝ) (w : NNWrapper)
    (nnCount : Nat) : Res (Tensor ℝ × Tensor ℝ) :=
  let e := m.embedding env train
  let e2 := e.2.embedding env test
  regressAny env.bessel m.layer.R { w with nnCount := nnCount } e2.1 e.1 responses

end Deep
end MuyGPyS
