import Verif.Spec.Workflow

/-! # Far from the data -/

namespace MuyGPyS
open Py

/-- The (Euclidean) distance of a point from each of the `N` points of a table is greater than `ρ`. -/
def FarFrom (X : Tensor ℝ) (N f : Nat) (ρ : ℝ) (q : Fin f → ℝ) : Prop :=
  ∀ i < N, ρ < √(∑ c, (q c - rowPt X f i c) ^ 2)

/-- The kernel is not the general Matérn implementation, or its smoothness is positive and finite. -/
def KernelObj.Proper (k : KernelObj) : Prop :=
  k.fn = .gen → ∃ q ν, k.smoothness = some q ∧ q.val = Flt.fin ν ∧ 0 < ν

end MuyGPyS
