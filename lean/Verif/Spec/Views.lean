import Verif.Py.Tensor

/-!
# Reading a tensor as matrices and vectors, by multi-index

Used only to state theorems: everything is `t.get [index …]`, i.e. Python `t[index, …]`.
-/

namespace Spec
open Py

/-- covariance matrix of batch element `p` of a `(b, n, n)` tensor -/
def cov (n : Nat) (t : Tensor ℝ) (p : Nat) : Matrix (Fin n) (Fin n) ℝ := fun i j => t.get [p, i, j]

/-- row `p` of a `(b, n)` tensor -/
def vec (n : Nat) (t : Tensor ℝ) (p : Nat) : Fin n → ℝ := fun i => t.get [p, i]

/-- response `c` of batch element `p` of a `(b, n, r)` tensor -/
def vecR (n : Nat) (t : Tensor ℝ) (p c : Nat) : Fin n → ℝ := fun i => t.get [p, i, c]

/-- covariance of batch element `p` of a `(b, o, n, o, n)` multi-output tensor, rows and columns
enumerated observable-major -/
def cov5 (o n : Nat) (t : Tensor ℝ) (p : Nat) : Matrix (Fin (o * n)) (Fin (o * n)) ℝ :=
  fun i j => t.get [p, i / n, i % n, j / n, j % n]

/-- cross-covariance with output `c` of batch element `p` of a `(b, o, n, q)` tensor -/
def cross4 (o n : Nat) (t : Tensor ℝ) (p c : Nat) : Fin (o * n) → ℝ :=
  fun i => t.get [p, i / n, i % n, c]

/-- targets of batch element `p` of a `(b, o, n)` tensor -/
def vec3 (o n : Nat) (t : Tensor ℝ) (p : Nat) : Fin (o * n) → ℝ :=
  fun i => t.get [p, i / n, i % n]

end Spec
