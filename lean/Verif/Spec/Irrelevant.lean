import Verif.Spec.Extremes
import Verif.Spec.Continuity

/-! # Tables with more features -/

namespace MuyGPyS
open Py

/-- Row `i` of the table `X` with `f` features has, at the positions `ι`, the features of row `i` of `X₀`. -/
def Extends {f₀ f : Nat} (ι : Fin f₀ → Fin f) (n : Nat) (X₀ X : Tensor ℝ) : Prop := ∀ i < n, ∀ c, X.get [i, ι c] = X₀.get [i, c]

/-- In all `n` rows of the table `X`, feature `c` has the value `a c` unless its position is one of `ι`. -/
def ConstantElsewhere {f₀ f : Nat} (ι : Fin f₀ → Fin f) (n : Nat) (a : Fin f → ℝ) (X : Tensor ℝ) : Prop :=
  ∀ i < n, ∀ c, (∀ d, ι d ≠ c) → X.get [i, c] = a c

end MuyGPyS
