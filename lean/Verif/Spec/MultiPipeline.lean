import Verif.Model.MultiPipeline
import Verif.Spec.Pipeline
import Verif.Props.Definite

/-! # What the end-to-end functions with one model per response promise -/

namespace MuyGPyS
open Py

/-- Column `c` of the responses, as the `(N, 1)` responses of a single-output model. -/
def responseColumn (Y : Tensor ℝ) (c : Nat) : Tensor ℝ :=
  match Y.shape with
  | [N, r] => ⟨[N, 1], fun k => Y.flat (k * r + c)⟩
  | _ => Y

/-- A model with a hyperparameter to be optimised. -/
def Learner.Free (L : Learner) : Prop := ∃ np ∈ L.gp.params, np.2.fixed = false

/-- A model all of whose hyperparameters are fixed. -/
def Learner.AllFixed (L : Learner) : Prop := ∀ np ∈ L.gp.params, np.2.fixed = true

/-- The models agree on the kind of difference tensor: same deformation kind and metric. -/
def SameTensors (Ls : List Learner) : Prop :=
  ∀ L ∈ Ls, ∀ L' ∈ Ls, L.deform.kind = L'.deform.kind ∧ L.deform.metric = L'.deform.metric

/-- A model that can predict `m` points: its kernel function is the one `_make` chooses and fits the metric, the noise has the
right size, and together with the training set it suffices for invertible neighbourhood covariances. -/
def Learner.Usable (L : Learner) (w : NNWrapper) (m : Nat) : Prop :=
  L.make.fn = L.fn ∧ L.fn.Suits L.deform.metric ∧ L.trainee.R.gp.noise.Fits m w.nnCount ∧
    L.trainee.R.gp.noise.Suffices m w.nnCount (DistinctRows w.train w.N w.f)

end MuyGPyS
