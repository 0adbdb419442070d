import Mathlib.LinearAlgebra.Matrix.NonsingularInverse
import Mathlib.LinearAlgebra.Matrix.DotProduct
import Mathlib.Data.Real.Basic

/-!
# Specification: the textbook kriging equations

For one query with neighbourhood covariance `K` (noise included), cross-covariance vector `k`,
neighbour targets `y` and prior variance `c`.  Nothing here refers to the model of the code.
-/

namespace Spec
open Matrix

/-- kriging mean `kᵀ K⁻¹ y` -/
noncomputable def krigingMean {n : Nat} (K : Matrix (Fin n) (Fin n) ℝ) (k y : Fin n → ℝ) : ℝ :=
  k ⬝ᵥ (K⁻¹ *ᵥ y)

/-- kriging variance `c - kᵀ K⁻¹ k` -/
noncomputable def krigingVar {n : Nat} (c : ℝ) (K : Matrix (Fin n) (Fin n) ℝ) (k : Fin n → ℝ) : ℝ :=
  c - k ⬝ᵥ (K⁻¹ *ᵥ k)

/-- multi-output kriging covariance `C - Gᵀ K⁻¹ G`, with `G` the cross-covariances -/
noncomputable def krigingCov {n o : Nat} (C : Matrix (Fin o) (Fin o) ℝ)
    (K : Matrix (Fin n) (Fin n) ℝ) (G : Matrix (Fin n) (Fin o) ℝ) : Matrix (Fin o) (Fin o) ℝ :=
  C - G.transpose * K⁻¹ * G

end Spec
