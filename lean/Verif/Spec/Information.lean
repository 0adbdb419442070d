import Verif.Spec.Invariance
import Verif.Spec.Prior

/-! # What it means that a model is given more information -/

namespace MuyGPyS
open Py

/-- Every training point of `w` is one of the training points of `w'`: point `i` is there under the number `σ i`. -/
def NNWrapper.Extends (w' w : NNWrapper) (σ : Nat → Nat) : Prop :=
  (∀ i < w.N, σ i < w'.N ∧ rowPt w'.train w.f (σ i) = rowPt w.train w.f i) ∧ ∀ i < w.N, ∀ j < w.N, σ i = σ j → i = j

/-- At each of the test points every neighbour `w` predicts from is, under its number in `w'`, one of the neighbours `w'` predicts from. -/
def NNWrapper.Keeps (w' w : NNWrapper) (σ : Nat → Nat) (Q : Tensor ℝ) (m : Nat) : Prop :=
  ∀ p < m, ∀ x ∈ w.answer (rowPt Q w.f p) w.nnCount, σ x ∈ w'.answer (rowPt Q w'.f p) w'.nnCount

end MuyGPyS
