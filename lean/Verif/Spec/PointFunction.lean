import Verif.Model.Neighbors

/-! # Predictions as functions of the test point -/

namespace MuyGPyS
open Py

/-- One test point, as a table with a single row. -/
def single {f : Nat} (q : Fin f → ℝ) : Tensor ℝ := ⟨[1, f], fun k => if h : k < f then q ⟨k, h⟩ else 0⟩

/-- The function `F` of a single point says everything about predictions (mean, variance) for tables of test points: if it has no value at one of the points, prediction of
the table fails (a singular covariance), otherwise every test point is predicted the value `F` has there. -/
def PredictsPointwise (run : Tensor ℝ → Res (Tensor ℝ × Tensor ℝ)) (f : Nat) (F : (Fin f → ℝ) → Option (ℝ × ℝ)) : Prop :=
  ∀ (m : Nat) (Q : Tensor ℝ), 0 < m → Q.shape = [m, f] →
    ((∃ p < m, F (rowPt Q f p) = none) ∧ run Q = .error .linAlg) ∨
    ∃ μ v, run Q = .ok (μ, v) ∧ μ.shape = [m] ∧ v.shape = [m] ∧ ∀ p < m, F (rowPt Q f p) = some (μ.get [p], v.get [p])

/-- The same for `r` responses. -/
def PredictsPointwiseMulti (run : Tensor ℝ → Res (Tensor ℝ × Tensor ℝ)) (f r : Nat) (F : (Fin f → ℝ) → Option ((Fin r → ℝ) × ℝ)) : Prop :=
  ∀ (m : Nat) (Q : Tensor ℝ), 0 < m → Q.shape = [m, f] →
    ((∃ p < m, F (rowPt Q f p) = none) ∧ run Q = .error .linAlg) ∨
    ∃ μ v, run Q = .ok (μ, v) ∧ μ.shape = [m, r] ∧ v.shape = [m] ∧ ∀ p < m, F (rowPt Q f p) = some (fun c : Fin r => μ.get [p, c], v.get [p])

end MuyGPyS
