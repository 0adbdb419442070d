import Verif.Spec.Train
import Verif.Model.FreshDraws

/-! # What the random choices of an evaluation may be -/

namespace MuyGPyS
open Py

/-- Possible draws of one evaluation of a scale estimate from `k` random samples of `m` out of `n` neighbours without replacement. -/
def AreSamples (n m k : Nat) (samples : List (List Nat)) : Prop :=
  samples.length = k ∧ ∀ s ∈ samples, s.length = m ∧ s.Nodup ∧ ∀ i ∈ s, i < n

/-- The model estimates no variance scale from random samples, or the loss does not use it. -/
def Learner.Deterministic (L : Learner) (l : LossKind) : Prop :=
  l.raw = true ∨ ∀ m, L.scaleKind ≠ .downSample m

end MuyGPyS
