import Mathlib.Analysis.Calculus.Deriv.Basic
import Mathlib.Analysis.SpecialFunctions.Exp
import Mathlib.LinearAlgebra.Matrix.PosDef

/-!
# What the shear kernel promises

A random potential `ψ` on the plane has covariance `Cov (ψ s, ψ t) = exp (-|s - t|² / (2ℓ))`. The
observables are the convergence `κ = ½ (∂₁₁ + ∂₂₂) ψ` and the shears `γ₁ = ½ (∂₁₁ - ∂₂₂) ψ` and
`γ₂ = ∂₁₂ ψ`. The covariance of two observables is obtained by applying their operators to the
covariance of the potential, each in its own variable.
-/

namespace MuyGPyS
namespace Shear

/-- Partial derivative in the first coordinate. -/
noncomputable def dx (f : ℝ → ℝ → ℝ) : ℝ → ℝ → ℝ := fun x y => deriv (fun u => f u y) x

/-- Partial derivative in the second coordinate. -/
noncomputable def dy (f : ℝ → ℝ → ℝ) : ℝ → ℝ → ℝ := fun x y => deriv (fun u => f x u) y

/-- The three observables of a potential: convergence, first shear, second shear. -/
noncomputable def observe (a : Fin 3) (ψ : ℝ → ℝ → ℝ) : ℝ → ℝ → ℝ := fun x y =>
  match a with
  | 0 => (dx (dx ψ) x y + dy (dy ψ) x y) / 2
  | 1 => (dx (dx ψ) x y - dy (dy ψ) x y) / 2
  | 2 => dx (dy ψ) x y

/-- Covariance of the potential. -/
noncomputable def potential (ℓ : ℝ) (s t : ℝ × ℝ) : ℝ :=
  Real.exp (-((s.1 - t.1) ^ 2 + (s.2 - t.2) ^ 2) / (2 * ℓ))

/-- Covariance of observable `a` at `s` and observable `c` at `t`. -/
noncomputable def covariance (ℓ : ℝ) (a c : Fin 3) (s t : ℝ × ℝ) : ℝ :=
  observe a (fun s₁ s₂ => observe c (fun t₁ t₂ => potential ℓ (s₁, s₂) (t₁, t₂)) t.1 t.2) s.1 s.2

/-- The observable of a flattened (observable, neighbour) index. -/
def obsOf {o n : Nat} (i : Fin (o * n)) : Fin o := ⟨i / n, Nat.div_lt_of_lt_mul (Nat.mul_comm o n ▸ i.2)⟩

/-- Joint covariance of the observables `obs` at the neighbours `x`, observable-major. -/
noncomputable def neighbourCov {o : Nat} (ℓ : ℝ) (obs : Fin o → Fin 3) (n : Nat) (x : Nat → ℝ × ℝ) :
    Matrix (Fin (o * n)) (Fin (o * n)) ℝ :=
  Matrix.of fun i j => covariance ℓ (obs (obsOf i)) (obs (obsOf j)) (x (i % n)) (x (j % n))

/-- Covariance of the observables `obs` at the neighbours `x` with all three observables at the query `z`. -/
noncomputable def queryCov {o : Nat} (ℓ : ℝ) (obs : Fin o → Fin 3) (n : Nat) (x : Nat → ℝ × ℝ) (z : ℝ × ℝ) :
    Matrix (Fin (o * n)) (Fin 3) ℝ :=
  Matrix.of fun i c => covariance ℓ (obs (obsOf i)) c (x (i % n)) z

/-- Prior covariance of the three observables at one point. -/
noncomputable def priorCov (ℓ : ℝ) (z : ℝ × ℝ) : Matrix (Fin 3) (Fin 3) ℝ := Matrix.of fun a c => covariance ℓ a c z z

/-- Measurement noise of the three observables: variance `2τ` for the convergence, `τ` for each shear. -/
noncomputable def shearNoiseMat (n : Nat) (τ : ℝ) : Matrix (Fin (3 * n)) (Fin (3 * n)) ℝ :=
  Matrix.diagonal fun i => if obsOf i = 0 then 2 * τ else τ

end Shear
end MuyGPyS
