import Verif.Spec.Prior
import Verif.Spec.Workflow

/-! # Models with the general Matérn kernel -/

namespace MuyGPyS
open Py

/-- A model with the general Matérn implementation (`kv`), smoothness `ν`, the length scales `len`, noise variance `τ` and scale `σ`. -/
structure Regressor.GeneralMatern (R : Regressor) (ν : ℝ) {f : Nat} (len : Fin f → ℝ) (τ σ : ℝ) : Prop where
  made : R.kernel.make = R.kernel
  kout : R.gp.kout = KernelObj.kout
  fn : R.kernel.fn = .gen
  metric : R.kernel.deform.metric = .l2
  smooth : ∃ q : Param, R.kernel.smoothness = some q ∧ q.val = Flt.fin ν
  lengths : R.kernel.deform.HasLengths f len
  noise : R.gp.noise = .homoscedastic τ
  scale : R.gp.boundScale = σ

/-- A model with the closed-form implementation of the Matérn kernel with smoothness `ν` (1/2, 3/2 or 5/2). -/
structure Regressor.ClosedMatern (R : Regressor) (ν : ℝ) {f : Nat} (len : Fin f → ℝ) (τ σ : ℝ) : Prop where
  made : R.kernel.make = R.kernel
  kout : R.gp.kout = KernelObj.kout
  fn : (ν = 1 / 2 ∧ R.kernel.fn = .m05) ∨ (ν = 3 / 2 ∧ R.kernel.fn = .m15) ∨ (ν = 5 / 2 ∧ R.kernel.fn = .m25)
  metric : R.kernel.deform.metric = .l2
  lengths : R.kernel.deform.HasLengths f len
  noise : R.gp.noise = .homoscedastic τ
  scale : R.gp.boundScale = σ

/-- No test point is a training point. -/
def NNWrapper.New (w : NNWrapper) (Q : Tensor ℝ) (m : Nat) : Prop := ∀ p < m, ∀ i < w.N, rowPt Q w.f p ≠ rowPt w.train w.f i

end MuyGPyS
