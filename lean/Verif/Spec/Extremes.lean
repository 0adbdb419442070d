import Verif.Spec.Workflow
import Verif.Spec.Covariance
import Verif.Spec.Pipeline
import Verif.Spec.Bessel
import Verif.Model.MaternGen

/-! # Sensible hyperparameters -/

namespace MuyGPyS
open Py

/-- Positive length scales with a positive noise, or with a non-negative one if the training points are pairwise different. -/
def NNWrapper.hyperDomain (w : NNWrapper) : Set ((Fin w.f → ℝ) × ℝ) :=
  {x | (∀ c, 0 < x.1 c) ∧ (0 < x.2 ∨ 0 ≤ x.2 ∧ DistinctRows w.train w.N w.f)}

/-- Positive smoothness, positive length scales, and a noise above the defect of the general Matérn kernel at distance zero. -/
def NNWrapper.maternDomain (w : NNWrapper) : Set (ℝ × (Fin w.f → ℝ) × ℝ) :=
  {x | 0 < x.1 ∧ (∀ c, 0 < x.2.1 c) ∧ 1 - maternCorrelation x.1 machEps < x.2.2}

/-- The hyperparameters of `R`: the formula and the metric of its kernel are those of `k`, and it has the length scales, noise and variance scale given. -/
structure Regressor.Has (R : Regressor) (k : KernelObj) {f : Nat} (len : Fin f → ℝ) (τ σ : ℝ) : Prop where
  made : R.kernel.make = R.kernel
  kout : R.gp.kout = KernelObj.kout
  fn : R.kernel.fn = k.fn
  metric : R.kernel.deform.metric = k.deform.metric
  lengths : R.kernel.deform.HasLengths f len
  noise : R.gp.noise = .homoscedastic τ
  scale : R.gp.boundScale = σ

end MuyGPyS
