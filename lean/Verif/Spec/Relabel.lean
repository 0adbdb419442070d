import Verif.Spec.Classify
import Verif.Spec.Information

/-! # Naming the classes differently -/

namespace MuyGPyS
open Py

/-- `labels'` are the encoded labels `labels` of `N` points with the `r` classes renamed: class `c` is now what class `π c` was. -/
def Renamed (π : Nat → Nat) (labels labels' : Tensor ℝ) (N r : Nat) : Prop :=
  Permutes π r ∧ labels.shape = [N, r] ∧ labels'.shape = [N, r] ∧ ∀ i < N, ∀ c < r, labels'.get [i, c] = labels.get [i, π c]

end MuyGPyS
