import Verif.Spec.Workflow

/-! # Two training sets that agree near a point -/

namespace MuyGPyS
open Py

/-- The training points closer to `q` than `ρ`. -/
def NNWrapper.ball (w : NNWrapper) (q : Fin w.f → ℝ) (ρ : ℝ) : Set Nat := {i | i < w.N ∧ w.dist q (rowPt w.train w.f i) < ρ}

/-- An index with the same settings for other training data. -/
def NNWrapper.withData (w : NNWrapper) (N : Nat) (X : Tensor ℝ) (answer : (Fin w.f → ℝ) → Nat → List Nat) : NNWrapper :=
  { w with N := N, train := X, answer := answer }

/-- Two training sets (points and responses) agree closer to `q` than `ρ`: the training points there correspond one to one, with equal features and
responses. Nothing is said about training points farther away, nor about the order of the data. -/
def AgreeNear (w : NNWrapper) (Y : Tensor ℝ) (N' : Nat) (X' : Tensor ℝ) (answer' : (Fin w.f → ℝ) → Nat → List Nat) (Y' : Tensor ℝ) (q : Fin w.f → ℝ) (ρ : ℝ) : Prop :=
  ∃ σ : Nat → Nat, Set.BijOn σ (w.ball q ρ) ((w.withData N' X' answer').ball q ρ) ∧
    ∀ i ∈ w.ball q ρ, rowPt X' w.f (σ i) = rowPt w.train w.f i ∧ ∀ c, feature Y' (σ i) c = feature Y i c

end MuyGPyS
