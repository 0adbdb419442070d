import Verif.Spec.Kernel
import Verif.Spec.Tensors
import Mathlib.Data.Fintype.Card

/-! # When covariance matrices are promised to be positive (semi)definite -/

namespace MuyGPyS
open Py

/-- A kernel with a closed form is used with the distances it is meant for: `RBF` with squared distances (`F2`), Matérn kernels
with distances (`l2`). -/
def KFn.Suits : KFn → Metric → Prop
  | .rbf, m => m = .F2
  | .gen, _ => False
  | _, m => m = .l2

/-- The training points listed in row `p` of `nn` are different points: they differ pairwise in some feature. -/
def DistinctNeighbours (X : Tensor ℝ) (N f n : Nat) (nn : Tensor Int) (p : Nat) : Prop :=
  ∀ i j : Fin n, i ≠ j → ∃ c < f, feature X (pointOf N (nn.get [p, i])) c ≠ feature X (pointOf N (nn.get [p, j])) c

/-- No two of the `N` points are the same: any two differ in some feature. -/
def DistinctRows (X : Tensor ℝ) (N f : Nat) : Prop :=
  ∀ i < N, ∀ j < N, i ≠ j → ∃ c < f, feature X i c ≠ feature X j c

open Classical in
/-- At most `m` of the neighbours in row `p` (itself included) are the same point as any one of them. -/
def RepeatedAtMost (X : Tensor ℝ) (N f n : Nat) (nn : Tensor Int) (p m : Nat) : Prop :=
  ∀ i : Fin n, (Finset.univ.filter fun j : Fin n =>
    ∀ c : Fin f, feature X (pointOf N (nn.get [p, i])) c = feature X (pointOf N (nn.get [p, j])) c).card ≤ m

end MuyGPyS
