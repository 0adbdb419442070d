import Verif.Spec.ErrorBound
import Verif.Spec.Workflow

/-! # How far predictions from few neighbours can be from those from many -/

namespace MuyGPyS
open Py

/-- The bound of C119 for predictions from `nn_count` and from `k'` neighbours: how far they can be from each other for responses which a function of
energy `E` explains up to the residuals. It is attained. -/
def PriceBound (bs : Flt → ℝ → ℝ) (R : Regressor) (w w' : NNWrapper) (Q : Tensor ℝ) (m : Nat) (κ : (Fin w.f → ℝ) → (Fin w.f → ℝ) → ℝ) (τ σ : ℝ) :
    Prop :=
  (∀ Y : Tensor ℝ, Y.shape = [w.N] → ∃ μ v μ' v', regressAny bs R w Q w.train Y = .ok (μ, v) ∧ regressAny bs R w' Q w.train Y = .ok (μ', v') ∧
    μ.shape = [m] ∧ v.shape = [m] ∧ μ'.shape = [m] ∧ v'.shape = [m] ∧ ∀ p < m, v'.get [p] ≤ v.get [p] ∧
      ∀ (E : ℝ) (g : (Fin w.f → ℝ) → ℝ), Spec.EnergyAtMost κ E g → (0 < τ ∨ ∀ i < w.N, Y.get [i] = g (rowPt w.train w.f i)) →
        (μ'.get [p] - μ.get [p]) ^ 2 ≤
          (E + (∑ i ∈ Finset.range w.N, (Y.get [i] - g (rowPt w.train w.f i)) ^ 2) / τ) * ((v.get [p] - v'.get [p]) / σ)) ∧
  ∀ p < m, ∃ (Y μ v μ' v' : Tensor ℝ) (E : ℝ) (g : (Fin w.f → ℝ) → ℝ), Y.shape = [w.N] ∧ regressAny bs R w Q w.train Y = .ok (μ, v) ∧
    regressAny bs R w' Q w.train Y = .ok (μ', v') ∧ Spec.EnergyAtMost κ E g ∧ (0 < τ ∨ ∀ i < w.N, Y.get [i] = g (rowPt w.train w.f i)) ∧
      E + (∑ i ∈ Finset.range w.N, (Y.get [i] - g (rowPt w.train w.f i)) ^ 2) / τ = (v.get [p] - v'.get [p]) / σ ∧
      μ'.get [p] - μ.get [p] = (v.get [p] - v'.get [p]) / σ

end MuyGPyS
