import Verif.Spec.Train

/-! # Leave-one-out predictions and the response left out -/

namespace MuyGPyS
open Py

/-- The predictions a model makes for the elements of a batch during training: what a user obtains by calling the model's kernel and `posterior_mean` with the tensors of
`make_train_tensors`. -/
noncomputable def Learner.looMeans (bessel : Flt → ℝ → ℝ) (L : Learner) (d : TrainData) : Res (Tensor ℝ) := do
  let K ← L.trainee.R.kernel.call bessel d.pairwise []
  let C ← L.trainee.R.kernel.call bessel d.crosswise []
  L.trainee.R.gp.posteriorMean K C d.nnTargets

/-- Two lists of responses that differ at most in the response of point `x`. -/
def SameBut (Y Y' : Tensor ℝ) (N x : Nat) : Prop := ∀ z < N, z ≠ x → Y'.get [z] = Y.get [z]

end MuyGPyS
