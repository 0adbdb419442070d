import Verif.Spec.Invariance
import Verif.Spec.Kriging
import Mathlib.LinearAlgebra.Matrix.NonsingularInverse

/-! # Ordinary Gaussian process regression, which uses all training points

Rasmussen and Williams, Gaussian Processes for Machine Learning, equations 2.23, 2.24 (prediction) and 5.12 (leave-one-out). Nothing here
mentions neighbours. -/

namespace MuyGPyS
open Py Matrix

/-- The covariance matrix of all training points. -/
noncomputable def fullCov (bessel : Flt → ℝ → ℝ) (k : KernelObj) {f : Nat} (len : Fin f → ℝ) (X : Tensor ℝ) (N : Nat) : Matrix (Fin N) (Fin N) ℝ :=
  fun i j => k.covFn bessel len (rowPt X f i) (rowPt X f j)

/-- The covariances of a point with all training points. -/
noncomputable def fullCross (bessel : Flt → ℝ → ℝ) (k : KernelObj) {f : Nat} (len : Fin f → ℝ) (X : Tensor ℝ) (N : Nat) (q : Fin f → ℝ) : Fin N → ℝ :=
  fun j => k.covFn bessel len q (rowPt X f j)

/-- All responses. -/
def responses (Y : Tensor ℝ) (N : Nat) : Fin N → ℝ := fun i => Y.get [i]

/-- The error of the leave-one-out prediction of response `i` — Rasmussen and Williams (5.12): `[K⁻¹ y]_i / [K⁻¹]_ii`. -/
noncomputable def looError {N : Nat} (K : Matrix (Fin N) (Fin N) ℝ) (y : Fin N → ℝ) (i : Fin N) : ℝ := (K⁻¹ *ᵥ y) i / K⁻¹ i i

/-- The variance of the leave-one-out prediction of response `i` — Rasmussen and Williams (5.12): `1 / [K⁻¹]_ii`. -/
noncomputable def looVar {N : Nat} (K : Matrix (Fin N) (Fin N) ℝ) (i : Fin N) : ℝ := 1 / K⁻¹ i i

end MuyGPyS
