import Verif.Model.DataUtils
import Verif.Spec.Classify
import Verif.Spec.Batch
import Verif.Spec.Scale

/-! # What the data helpers of `_test/utils.py` promise -/

namespace MuyGPyS.Utils
open Py MuyGPyS

/-- A data set of `n` points with `f` features and `r` responses. -/
def Data.Has (d : Data) (n f r : Nat) : Prop := d.input.shape = [n, f] ∧ d.output.shape = [n, r]

/-- The rows of `d'` are the rows `σ 0, σ 1, …` of `d`, features and responses together. -/
def Data.RowsOf (d' d : Data) (f r m : Nat) (σ : Nat → Nat) : Prop :=
  ∀ q < m, (∀ c < f, d'.input.get [q, c] = d.input.get [σ q, c]) ∧ ∀ c < r, d'.output.get [q, c] = d.output.get [σ q, c]

open Classical in
/-- The number of points (of `n`) whose largest response is response `c` (the first such, if there are several). -/
noncomputable def Data.classSize (d : Data) (n r c : Nat) : Nat :=
  ((Finset.range n).filter fun i => IsFirstMax (fun k => d.output.get [i, k]) r c).card

open Classical in
/-- The number of classes that occur. -/
noncomputable def Data.classCount (d : Data) (n r : Nat) : Nat := ((Finset.range r).filter fun c => 0 < d.classSize n r c).card

end MuyGPyS.Utils
