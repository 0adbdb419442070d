import Verif.Spec.MultiPipeline

/-! # What it means to present the same data in another way -/

namespace MuyGPyS
open Py

/-- Squared Euclidean distance. -/
def sqDist {f : Nat} (x y : Fin f → ℝ) : ℝ := ∑ c, (x c - y c) ^ 2

/-- The neighbour index orders points by Euclidean distance (any strictly increasing function of it). -/
def NNWrapper.Euclidean (w : NNWrapper) : Prop :=
  ∃ φ : ℝ → ℝ, StrictMonoOn φ (Set.Ici 0) ∧ ∀ x y, w.dist x y = φ (sqDist x y)

/-- No test point is equally far from two training points. -/
def NNWrapper.NoTies (w : NNWrapper) (Q : Tensor ℝ) (m : Nat) : Prop :=
  ∀ q < m, ∀ i < w.N, ∀ j < w.N, i ≠ j →
    w.dist (rowPt Q w.f q) (rowPt w.train w.f i) ≠ w.dist (rowPt Q w.f q) (rowPt w.train w.f j)

/-- `σ` permutes `0, …, N - 1`. -/
def Permutes (σ : Nat → Nat) (N : Nat) : Prop :=
  (∀ i < N, σ i < N) ∧ ∀ i < N, ∀ j < N, σ i = σ j → i = j

/-- Two kernel objects differ at most in the length scales. -/
def KernelObj.SameBut (k k' : KernelObj) : Prop :=
  k'.fn = k.fn ∧ k'.smoothness = k.smoothness ∧ k'.deform.metric = k.deform.metric

end MuyGPyS
