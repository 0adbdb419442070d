import Verif.Spec.Invariance

/-! # When the nearest neighbours of a point are unambiguous -/

namespace MuyGPyS
open Py

/-- `S` are the nearest training points of `q`, and every other training point is farther. -/
def NNWrapper.ClearAt (w : NNWrapper) (q : Fin w.f → ℝ) (S : Finset Nat) : Prop :=
  S.card = w.nnCount ∧ (∀ i ∈ S, i < w.N) ∧
    ∀ i ∈ S, ∀ j < w.N, j ∉ S → sqDist q (rowPt w.train w.f i) < sqDist q (rowPt w.train w.f j)

end MuyGPyS
