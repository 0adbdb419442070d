import Verif.Spec.Scale
import Mathlib.Analysis.SpecialFunctions.Log.Basic
import Mathlib.Analysis.SpecialFunctions.Trigonometric.Basic

/-! # Likelihood of a variance scale -/

namespace Spec
open Matrix

/-- The density at `y` of the centred normal distribution with the covariance matrix `S`. -/
noncomputable def normalDensity {n : Nat} (S : Matrix (Fin n) (Fin n) ℝ) (y : Fin n → ℝ) : ℝ :=
  Real.exp (-(1 / 2) * (y ⬝ᵥ (S⁻¹ *ᵥ y))) / √((2 * Real.pi) ^ n * S.det)

/-- The likelihood of the variance scale `s`: the product over the neighbourhoods `0, …, b - 1` of the normal densities of their
responses `y p`, with the covariances `s K p`. -/
noncomputable def scaleLikelihood {n : Nat} (b : Nat) (K : Nat → Matrix (Fin n) (Fin n) ℝ) (y : Nat → Fin n → ℝ) (s : ℝ) : ℝ :=
  ∏ p ∈ Finset.range b, normalDensity (s • K p) (y p)

end Spec
