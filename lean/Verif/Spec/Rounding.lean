import Verif.Spec.Continuity

/-! # Tables whose entries differ by little -/

namespace MuyGPyS
open Py

/-- Two tables with `n` rows of `f` columns differ by less than `δ` in every entry. -/
def CloseRows (n f : Nat) (δ : ℝ) (A B : Tensor ℝ) : Prop := ∀ i < n, ∀ c < f, |B.get [i, c] - A.get [i, c]| < δ

/-- Two vectors with `n` entries differ by less than `δ` in every entry. -/
def CloseEntries (n : Nat) (δ : ℝ) (A B : Tensor ℝ) : Prop := ∀ i < n, |B.get [i] - A.get [i]| < δ

end MuyGPyS
