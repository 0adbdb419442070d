import Verif.Spec.Information

/-! # Which training points can influence a prediction -/

namespace MuyGPyS
open Py

/-- The training points that can be among the `nn_count` nearest ones of `q`: those for which fewer than `nn_count` training
points are strictly closer to `q`. -/
noncomputable def NNWrapper.candidates (w : NNWrapper) (q : Fin w.f → ℝ) : Finset Nat :=
  open Classical in
  (Finset.range w.N).filter fun i =>
    ((Finset.range w.N).filter fun j => w.dist q (rowPt w.train w.f j) < w.dist q (rowPt w.train w.f i)).card < w.nnCount

end MuyGPyS
