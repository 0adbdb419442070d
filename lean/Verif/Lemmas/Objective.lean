import Verif.Spec.Objective

namespace MuyGPyS
open Py

theorem scaleOptFn_eq (T : Trainee) (draws : List (List Nat)) (K Y : Tensor ℝ) (kw : Dict Flt) :
    scaleOptFn T.scaleKind T.R.gp draws K Y kw = T.promisedScale draws K Y := by
  unfold scaleOptFn Trainee.promisedScale
  cases T.scaleKind with
  | fixed => rfl
  | analytic n => cases analyticOpt T.R.gp.noise n K Y <;> rfl
  | downSample d => rfl

end MuyGPyS
