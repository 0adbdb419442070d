import Verif.Model.Multivariate
import Verif.Spec.Objective

/-! # What a multi-output model promises: its outputs are those of its univariate models -/

namespace MuyGPyS
open Py

/-- Column `c` of the `(b, n, r)` neighbour targets, as the `(b, n)` targets of a univariate model. -/
def targetColumn (y : Tensor ℝ) (c : Nat) : Tensor ℝ :=
  Tensor.ofFn (y.shape.take 2) fun idx => y.get [idx.getD 0 0, idx.getD 1 0, c]

/-- The posterior mean of a univariate model from difference tensors: what its user computes. -/
noncomputable def univariateMean (bessel : Flt → ℝ → ℝ) (R : Regressor) (pairwise crosswise y : Tensor ℝ) :
    Res (Tensor ℝ) := do
  let Kin ← R.kernel.call bessel pairwise []
  let Kcross ← R.kernel.call bessel crosswise []
  R.gp.posteriorMean Kin Kcross y

/-- The posterior variance of a univariate model from difference tensors. -/
noncomputable def univariateVariance (bessel : Flt → ℝ → ℝ) (R : Regressor) (pairwise crosswise : Tensor ℝ) :
    Res (Tensor ℝ) := do
  let Kin ← R.kernel.call bessel pairwise []
  let Kcross ← R.kernel.call bessel crosswise []
  R.gp.posteriorVariance Kin Kcross

/-- The scale estimate of a univariate model from pairwise differences and `(b, n)` targets. -/
noncomputable def univariateScale (bessel : Flt → ℝ → ℝ) (T : Trainee) (draws : List (List Nat))
    (pairwise y : Tensor ℝ) : Res (Option ℝ) := do
  let Kin ← T.R.kernel.call bessel pairwise []
  T.promisedScale draws Kin y

/-- The coefficients of fast prediction of a univariate model. -/
noncomputable def univariateCoefficients (bessel : Flt → ℝ → ℝ) (R : Regressor) (pairwise y : Tensor ℝ) :
    Res (Tensor ℝ) := do
  let Kin ← R.kernel.call bessel pairwise []
  R.gp.fastCoefficients Kin y

/-- The model's kernel accepts the difference tensors of `b` predictions from `n` neighbours each. -/
def Regressor.Realizes (bessel : Flt → ℝ → ℝ) (R : Regressor) (pairwise crosswise : Tensor ℝ) (b n : Nat) : Prop :=
  ∃ K C, R.kernel.call bessel pairwise [] = .ok K ∧ K.shape = [b, n, n] ∧
    R.kernel.call bessel crosswise [] = .ok C ∧ C.shape = [b, n]

end MuyGPyS
