import Verif.Model.Pipeline
import Verif.Spec.Train
import Verif.Spec.Workflow
import Verif.Spec.Scale
import Verif.Spec.Batch
import Verif.Props.Posterior

/-! # What the end-to-end functions promise -/

namespace MuyGPyS
open Py

/-- The variance scale a model with a fixed or analytic scale should have after training on the neighbourhoods listed in `nn`:
its own scale if that is fixed, otherwise `1/(b k) Σ Yᵀ K⁻¹ Y` with its own hyperparameters. -/
noncomputable def Learner.estimateOn (bs : Flt → ℝ → ℝ) (L : Learner) {f : Nat} (len : Fin f → ℝ) (X Y : Tensor ℝ) (N n b : Nat)
    (nn : Tensor Int) : ℝ :=
  match L.scaleKind with
  | .fixed => L.scale
  | _ => Spec.scaleEstimate b (fun p => nbrCov bs L.trainee.R.kernel len X N n nn p + L.trainee.R.gp.noise.mat n p)
      (fun p => nbrTargets Y N n nn p 0)

/-- Row `k` of `nn` lists, for every `k`, the nearest other training points of batch point `idx[k]`. -/
def NearestOthers (w : NNWrapper) (idx : List Nat) (nn : Tensor Int) : Prop :=
  ∀ k x, idx[k]? = some x → ∃ l : List Nat, rowList nn w.nnCount k = l.map Int.ofNat ∧
    Nearest (fun j => j < w.N ∧ j ≠ x) (fun j => w.dist (rowPt w.train w.f x) (rowPt w.train w.f j)) w.nnCount l

/-- Different training points are at positive distance, equal points at distance zero. -/
def NNWrapper.Separated (w : NNWrapper) : Prop :=
  (∀ x, w.dist x x = 0) ∧
  ∀ i < w.N, ∀ j < w.N, j ≠ i → 0 < w.dist (rowPt w.train w.f i) (rowPt w.train w.f j)

end MuyGPyS
