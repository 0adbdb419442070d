import Mathlib.Data.Fintype.CardEmbedding
import Mathlib.Data.Real.Basic
import Verif.Spec.Batch
import Verif.Model.Pipeline

/-! # Random batches: the average over all ways to draw a batch -/

namespace Spec

/-- The average of `F` over all ordered draws of `b` of `N` points without repetition, as `np.random.choice(N, b, replace=False)` draws them. -/
noncomputable def drawAverage (N b : Nat) (F : List Nat → ℝ) : ℝ :=
  (∑ e : Fin b ↪ Fin N, F (List.ofFn fun i => (e i : Nat))) / Fintype.card (Fin b ↪ Fin N)

/-- The variance of `F` over all ordered draws of `b` of `N` points without repetition. -/
noncomputable def drawVariance (N b : Nat) (F : List Nat → ℝ) : ℝ :=
  drawAverage N b fun l => (F l - drawAverage N b F) ^ 2

end Spec

namespace MuyGPyS
open Py

/-- The objective at the hyperparameters `kw` on a batch: draw a batch, make the tensors, evaluate the objective function. -/
noncomputable def Learner.batchObjective (bessel : Flt → ℝ → ℝ) (L : Learner) (l : LossKind) (draws : List (List Nat)) (w : NNWrapper) (Y : Tensor ℝ)
    (kw : Dict Flt) (bc : Nat) (draw : List Nat) : Res (Option ℝ) := do
  let batch ← sampleBatch w bc w.N draw
  let d ← L.trainData batch w.train Y
  L.objective bessel l draws d kw

/-- The variance scale estimated from a batch: draw a batch, make the tensors, call `optimize_scale`. -/
noncomputable def Learner.batchScale (bessel : Flt → ℝ → ℝ) (L : Learner) (scaleDraws : List (List Nat)) (w : NNWrapper) (Y : Tensor ℝ)
    (bc : Nat) (draw : List Nat) : Res Learner := do
  let batch ← sampleBatch w bc w.N draw
  let d ← L.trainData batch w.train Y
  L.optimizeScale bessel scaleDraws d.pairwise d.nnTargets

/-- The losses that are sums (or averages) over the batch at given hyperparameters: losses of the means, and losses of means and variances if the variance scale
is not estimated from the batch. -/
def Learner.AdditiveLoss (L : Learner) : LossKind → Prop
  | .mse => True
  | .pseudoHuber _ => True
  | .lool => L.scaleKind = .fixed
  | .looph _ => L.scaleKind = .fixed
  | _ => False

end MuyGPyS
