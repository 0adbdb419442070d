import Verif.Model.Neighbors

/-! # One more training point -/

namespace MuyGPyS
open Py

/-- `X'` and `Y'` are the training data `X`, `Y` of `N` points with the point `s` and its response `y` added at the end. -/
structure Appended (X Y X' Y' : Tensor ℝ) (N f : Nat) (s : Fin f → ℝ) (y : ℝ) : Prop where
  rows : ∀ i < N, rowPt X' f i = rowPt X f i
  row : rowPt X' f N = s
  values : ∀ i < N, Y'.get [i] = Y.get [i]
  value : Y'.get [N] = y

end MuyGPyS
