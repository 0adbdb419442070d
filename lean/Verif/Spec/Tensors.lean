import Verif.Model.Tensors

/-! # Points of a data set, as a user thinks of them -/

namespace MuyGPyS
open Py

/-- `data` is a table of `N` points with `f` features: a matrix, or a vector when `f = 1`. -/
def IsTable (data : Tensor ℝ) (N f : Nat) : Prop :=
  data.shape = [N, f] ∨ (data.shape = [N] ∧ f = 1)

/-- Feature `c` of point `i` of a table (for a vector the only feature is the entry itself). -/
def feature (data : Tensor ℝ) (i c : Nat) : ℝ :=
  match data.shape with
  | [_] => data.get [i]
  | _ => data.get [i, c]

/-- Every entry of an index array is acceptable for `N` points. -/
def AllValid (N : Nat) (idx : Tensor Int) : Prop :=
  ∀ k < idx.shape.prod, Tensor.validIndex N (idx.flat k)

/-- The point an index denotes (negative indices count from the end, as in NumPy). -/
def pointOf (N : Nat) (i : Int) : Nat := Tensor.wrapIndex N i

end MuyGPyS
