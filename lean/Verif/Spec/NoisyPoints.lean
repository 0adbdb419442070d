import Verif.Spec.ErrorBound
import Verif.Spec.Workflow
import Verif.Spec.Information

/-! # Models with one declared noise variance per training point -/

namespace MuyGPyS
open Py

/-- A model with a closed-form kernel with length scales `len`, variance scale `σ`, and the heteroscedastic noise that `make_heteroscedastic_tensor` makes of the
positive noise variances `noise`, one per training point, and the neighbours of the test points `Q`. -/
structure Regressor.Declares (R : Regressor) (w : NNWrapper) (Q : Tensor ℝ) (len : Fin w.f → ℝ) (σ : ℝ) (noise : Tensor ℝ) : Prop where
  made : R.kernel.make = R.kernel
  kout : R.gp.kout = KernelObj.kout
  suits : R.kernel.fn.Suits R.kernel.deform.metric
  lengths : R.kernel.deform.HasLengths w.f len
  scale : R.gp.boundScale = σ
  table : noise.shape = [w.N]
  positive : ∀ i < w.N, 0 < noise.get [i]
  noise : ∃ nn D T, w.getNns Q = .ok (nn, D) ∧ makeHeteroscedasticTensor noise nn = .ok T ∧ R.gp.noise = .heteroscedastic T

end MuyGPyS
