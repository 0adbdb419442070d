import Mathlib.Data.Real.Basic
import Mathlib.Algebra.BigOperators.Fin
import Mathlib.Data.Fintype.BigOperators

/-! # Functions a covariance function can explain, and how much energy they need

Nothing here refers to the model of the code: the definitions are those of the reproducing kernel Hilbert space of a covariance function `k`, in terms of
finite sums only. -/

namespace Spec

/-- `g` has energy (squared norm in the reproducing kernel Hilbert space of `k`) at most `E`: every linear combination of its values is bounded by that of the
covariance function. -/
def EnergyAtMost {X : Type*} (k : X → X → ℝ) (E : ℝ) (g : X → ℝ) : Prop :=
  ∀ (n : Nat) (x : Fin n → X) (d : Fin n → ℝ), (∑ i, d i * g (x i)) ^ 2 ≤ E * ∑ i, ∑ j, d i * d j * k (x i) (x j)

/-- A combination of covariances with the points `z`. -/
def combination {X : Type*} (k : X → X → ℝ) {r : Nat} (z : Fin r → X) (a : Fin r → ℝ) (x : X) : ℝ := ∑ i, a i * k (z i) x

/-- `f`, of energy at most `Ef`, minimises the energy plus the sum of the squared residuals over `τ` — the regularised least-squares fit of the values `y`
at the points `x` (kernel ridge regression). -/
structure RidgeFit {X : Type*} (k : X → X → ℝ) (τ : ℝ) {n : Nat} (x : Fin n → X) (y : Fin n → ℝ) (f : X → ℝ) (Ef : ℝ) : Prop where
  energy : EnergyAtMost k Ef f
  best : ∀ E h, EnergyAtMost k E h → Ef + (∑ j, (y j - f (x j)) ^ 2) / τ ≤ E + (∑ j, (y j - h (x j)) ^ 2) / τ

/-- `f`, of energy at most `Ef`, has the values `y` at the points `x` and no function with these values has less energy. -/
structure MinimalInterpolant {X : Type*} (k : X → X → ℝ) {n : Nat} (x : Fin n → X) (y : Fin n → ℝ) (f : X → ℝ) (Ef : ℝ) : Prop where
  energy : EnergyAtMost k Ef f
  values : ∀ j, f (x j) = y j
  best : ∀ E h, EnergyAtMost k E h → (∀ j, h (x j) = y j) → Ef ≤ E

end Spec
