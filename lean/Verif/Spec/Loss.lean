import Mathlib.Probability.Distributions.Gaussian.Real

/-! # Specification of the likelihood losses: Gaussian densities from Mathlib -/

namespace Spec

/-- One prediction: mean, target, variance. -/
structure Pred where
  mean : ℝ
  target : ℝ
  var : ℝ

/-- The likelihood of the targets under independent Gaussians with the predicted means and the
predicted variances multiplied by `scale`. -/
noncomputable def likelihood (scale : ℝ) (ps : List Pred) : ℝ :=
  (ps.map fun p =>
    ProbabilityTheory.gaussianPDFReal p.mean (scale * p.var).toNNReal p.target).prod

end Spec
