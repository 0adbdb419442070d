import Verif.Model.Posterior

/-!
# Histories of scale updates of a `MuyGPS` model
-/

namespace MuyGPyS
open Py

/-- `ScaleFn._set` — `gp/hyperparameter/scale.py:64-73`, `_check_positive_float` (`:46-58`): values `≤ 0` raise
`ValueError`, otherwise only the parameter object changes. -/
noncomputable def MuyGPS.setScale (m : MuyGPS) (v : ℝ) : Res MuyGPS :=
  if v ≤ 0 then .error .value else .ok { m with scale := v }

/-- `MuyGPS._make` as far as the scale is concerned — `gp/muygps.py:113-130`: the variance function is
rebuilt and captures the current scale. -/
def MuyGPS.remake (m : MuyGPS) : MuyGPS := { m with boundScale := m.scale }

/-- `MuyGPS.optimize_scale` — `gp/muygps.py:377-406`, with `v` the value its optimiser computes. -/
noncomputable def MuyGPS.optimizeScale (m : MuyGPS) (v : ℝ) : Res MuyGPS := do
  let m' ← m.setScale v
  pure m'.remake

/-- A history of `optimize_scale` calls; a call that raises leaves the model as it was — `gp/muygps.py:373-404`. -/
noncomputable def MuyGPS.history (m : MuyGPS) : List ℝ → MuyGPS
  | [] => m
  | v :: vs => MuyGPS.history (match m.optimizeScale v with | .ok m' => m' | .error _ => m) vs

end MuyGPyS
