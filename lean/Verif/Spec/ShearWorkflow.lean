import Verif.Spec.Shear
import Verif.Spec.Kriging
import Verif.Spec.Tensors

/-!
# What a user of a shear model expects

Training data: positions in the plane, and a table of observations with one row per position and one column per observed quantity
(convergence and the two shears, or the two shears).
-/

namespace MuyGPyS
namespace Shear
open Py

/-- The position of point `i` of an `(N, 2)` table. -/
def planePt (X : Tensor ℝ) (i : Nat) : ℝ × ℝ := (X.get [i, 0], X.get [i, 1])

/-- The observations of the neighbours `j 0, …, j (n-1)` in the table `Y`, all observations of the first quantity first. -/
def nbrObs (o n : Nat) (Y : Tensor ℝ) (j : Nat → Nat) : Fin (o * n) → ℝ := fun i => Y.get [j (i % n), obsOf i]

/-- The promise of a prediction at the positions `z p` from observations `w p` of the quantities `obs` at the positions `x p i`, with
noise covariance `N` and variance scale `σ`: kriging means and scaled posterior covariances of all three quantities. -/
def PredictsFrom {o : Nat} (ℓ σ : ℝ) (obs : Fin o → Fin 3) (b n : Nat) (N : Matrix (Fin (o * n)) (Fin (o * n)) ℝ)
    (z : Nat → ℝ × ℝ) (x : Nat → Nat → ℝ × ℝ) (w : Nat → Fin (o * n) → ℝ) (μ V : Tensor ℝ) : Prop :=
  μ.shape = [b, 3] ∧ V.shape = [b, 3, 3] ∧ ∀ p < b, ∀ c : Fin 3,
    μ.get [p, c] = Spec.krigingMean (neighbourCov ℓ obs n (x p) + N) (fun i => queryCov ℓ obs n (x p) (z p) i c) (w p) ∧
    ∀ c' : Fin 3, V.get [p, c, c'] = σ * Spec.krigingCov (priorCov ℓ (z p)) (neighbourCov ℓ obs n (x p) + N)
      (queryCov ℓ obs n (x p) (z p)) c c'

/-- The mean squared error of the kriging means of the quantities `cols` at the batch points `z p` against their observations. -/
noncomputable def shearMse {o k : Nat} (ℓ : ℝ) (obs : Fin o → Fin 3) (b n : Nat) (N : Matrix (Fin (o * n)) (Fin (o * n)) ℝ)
    (z : Nat → ℝ × ℝ) (x : Nat → Nat → ℝ × ℝ) (w : Nat → Fin (o * n) → ℝ) (cols : Fin k → Fin 3) (truth : Nat → Fin k → ℝ) : ℝ :=
  (∑ p ∈ Finset.range b, ∑ c : Fin k,
    (Spec.krigingMean (neighbourCov ℓ obs n (x p) + N) (fun i => queryCov ℓ obs n (x p) (z p) i (cols c)) (w p) - truth p c) ^ 2) /
      (b * k)

end Shear
end MuyGPyS
