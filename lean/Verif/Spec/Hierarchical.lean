import Verif.Model.Hierarchical
import Verif.Spec.Workflow

/-! # What a knot-based hyperparameter is: kriging from its knots -/

namespace MuyGPyS
open Py Matrix

/-- The covariance matrix of the knots (the first `n` points of a table) under the higher-level
kernel. -/
noncomputable def knotCov (bessel : Flt → ℝ → ℝ) (k : KernelObj) {f : Nat} (len : Fin f → ℝ)
    (X : Tensor ℝ) (n : Nat) : Matrix (Fin n) (Fin n) ℝ :=
  fun i j => k.covFn bessel len (pt X f i) (pt X f j)

/-- The covariances between a point and the knots. -/
noncomputable def knotCross (bessel : Flt → ℝ → ℝ) (k : KernelObj) {f : Nat} (len : Fin f → ℝ)
    (X : Tensor ℝ) (n : Nat) (q : Fin f → ℝ) : Fin n → ℝ :=
  fun j => k.covFn bessel len q (pt X f j)

/-- The knot values. -/
noncomputable def knotValues (ps : List Param) (n : Nat) : Fin n → ℝ :=
  fun j => ((ps[(j : Nat)]?).map fun p => p.val.toReal).getD 0

/-- The knot values in force when trial values `kw` are supplied under the names `length_scale0`,
`length_scale1`, …: the trial value of a knot if there is one, else its stored value. -/
noncomputable def knotsInForce (ps : List Param) (kw : Dict Flt) (n : Nat) : Fin n → ℝ :=
  fun j => ((ps[(j : Nat)]?).map fun p => (inForce kw (vecName "length_scale" j) p).toReal).getD 0

/-- One value per queried point: a vector, or a single number for a single point. -/
def OnePer (t : Tensor ℝ) (b : Nat) (v : Nat → ℝ) : Prop :=
  t.shape = (if b = 1 then [] else [b]) ∧ ∀ p < b, t.flat p = v p

end MuyGPyS
