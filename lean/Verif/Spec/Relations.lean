import Verif.Spec.Views

/-! # Relations among responses -/

namespace MuyGPyS
open Py

/-- In the first `n` rows of the table `T`, the first `r` columns satisfy the homogeneous linear relation with the coefficients `a`. -/
def Related (r : Nat) (a : Nat → ℝ) (n : Nat) (T : Tensor ℝ) : Prop := ∀ x < n, ∑ c ∈ Finset.range r, a c * T.get [x, c] = 0

end MuyGPyS
