import Verif.Spec.Workflow
import Mathlib.Analysis.SpecialFunctions.Sqrt

/-! # Errors of computed predictions -/

namespace Spec

/-- The Euclidean length of a vector. -/
noncomputable def size {n : Nat} (x : Fin n → ℝ) : ℝ := √(∑ i, x i ^ 2)

/-- How much `c · x` can be off if `x` is computed from a system of `n` equations with the noise variance `τ` and a right-hand side
of length `z`, with errors at most `δ` in the coefficients, at most `ε` in the right-hand side and at most `η` in `c`. -/
noncomputable def computedError (n : Nat) (τ δ η ε z : ℝ) : ℝ :=
  √n * η * (z / (τ - n * δ)) + (√n * ε + n * δ * (z / (τ - n * δ))) / (2 * √τ)

end Spec
