import Verif.Model.Hyper
import Verif.Spec.Param

/-! # What users rely on about the hyperparameters of a model -/

namespace MuyGPyS
open Py

/-- All scalar hyperparameters of a model by name: length scale(s), smoothness, noise. -/
def GP.params (m : GP) : List (String × Param) :=
  m.kernel.named ++ (match m.noise with | .homoscedastic p => [("noise", p)] | _ => [])

/-- Rewrite the elements of a numbered parameter list. -/
def mapNamed (base : String) (f : String → Param → Param) : Nat → List Param → List Param
  | _, [] => []
  | i, p :: ps => f (base ++ toString i) p :: mapNamed base f (i + 1) ps

/-- The model with every hyperparameter `p` named `n` replaced by `f n p` and nothing else changed. -/
def GP.mapParams (f : String → Param → Param) (m : GP) : GP where
  kernel :=
    { ls := match m.kernel.ls with
        | .scalar p => .scalar (f "length_scale" p)
        | .vector ps => .vector (mapNamed "length_scale" f 0 ps)
      smoothness := m.kernel.smoothness.map (f "smoothness") }
  noise := match m.noise with
    | .null => .null
    | .homoscedastic p => .homoscedastic (f "noise" p)
    | .heteroscedastic xs => .heteroscedastic xs
  scale := m.scale

/-- `x` moved to the nearest end of `[lb, ub]` when outside (extended reals). -/
noncomputable def clampE (lb ub x : EReal) : EReal := max lb (min x ub)

/-- The value an optimiser answer `ans` prescribes for parameter `n`: unfixed parameters take their
answer, clamped; fixed ones keep their state. -/
noncomputable def prescribed (ans : String → EReal) (n : String) (p : Param) : Param :=
  if p.fixed then p
  else match p.lb, p.ub with
    | some l, some u => { p with val := some (clampE l u (ans n)) }
    | _, _ => p

end MuyGPyS
