import Verif.Model.Param

/-! # What users rely on about scalar hyperparameters -/

namespace MuyGPyS

/-- A parameter state respecting its documentation: fixed, or real bounds with lower < upper and a
value between them. -/
def Param.Documented (p : Param) : Prop :=
  p.fixed = true ∨
    ∃ v l u : EReal, p.val = some v ∧ p.lb = some l ∧ p.ub = some u ∧ l < u ∧ l ≤ v ∧ v ≤ u

/-- What the code ensures instead: lower ≤ upper and the value within the bounds widened by 1e-5. -/
def Param.WithinTolerance (p : Param) : Prop :=
  p.fixed = true ∨
    ∃ v l u : EReal, p.val = some v ∧ p.lb = some l ∧ p.ub = some u ∧ l ≤ u ∧
      l + ((-(1e-5) : ℝ) : EReal) ≤ v ∧ v ≤ u + ((1e-5 : ℝ) : EReal)

/-- No NaN in a value argument. -/
def PyVal.NoNaN : PyVal → Prop
  | .num x => x ≠ none
  | _ => True

/-- No NaN in a bounds argument. -/
def PyBounds.NoNaN : PyBounds → Prop
  | .seq xs => ∀ x ∈ xs, x ≠ .num none
  | _ => True

/-- A draw of NumPy's generator. -/
def Env.Valid (e : Env) : Prop := ∀ r, 0 ≤ e.draws r ∧ e.draws r < 1

end MuyGPyS
