import Verif.Spec.Relabel

/-! # Writing the same classes, or the same responses, with other numbers -/

namespace MuyGPyS
open Py

/-- `labels'` are the labels `labels` of `N` points and `r` classes written with other numbers: `a * y + b` in place of `y`. From one-hot labels
(1 and 0) one gets labels 1 and -1 with `a = 2`, `b = -1`. -/
def Recoded (a b : ℝ) (labels labels' : Tensor ℝ) (N r : Nat) : Prop :=
  labels.shape = [N, r] ∧ labels'.shape = [N, r] ∧ ∀ i < N, ∀ c < r, labels'.get [i, c] = a * labels.get [i, c] + b

/-- `Y'` are the responses `Y` of `N` points measured from another origin: `c` is added to each. -/
def Shifted (c : ℝ) (Y Y' : Tensor ℝ) (N : Nat) : Prop :=
  Y.shape = [N] ∧ Y'.shape = [N] ∧ ∀ i < N, Y'.get [i] = Y.get [i] + c

end MuyGPyS
