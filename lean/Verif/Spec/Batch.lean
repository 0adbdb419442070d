import Verif.Model.Batch
import Verif.Spec.Neighbors
import Verif.Spec.Tensors

/-! # What batches promise -/

namespace MuyGPyS
open Py

/-- `draw` are `k` different positions below `pop`: what drawing without replacement returns. -/
def IsDraw (pop k : Nat) (draw : List Nat) : Prop :=
  draw.length = k ∧ draw.Nodup ∧ ∀ x ∈ draw, x < pop

/-- The neighbours of point `i` listed in row `i` of `nn` (`n` columns) do not all carry the same label. -/
def MixedNeighbours (labels : Tensor ℝ) (nn : Tensor Int) (n i : Nat) : Prop :=
  ∃ j < n, ∃ j' < n, labels.get [(nn.get [i, j]).toNat] ≠ labels.get [(nn.get [i, j']).toNat]

/-- All labels are integers (as class numbers are). -/
def IntegerLabels (labels : Tensor ℝ) (N : Nat) : Prop := ∀ i < N, ∃ z : ℤ, labels.get [i] = z

open Classical in
/-- How many indices of `l` have label `c`. -/
noncomputable def countClass (labels : Tensor ℝ) (l : List Nat) (c : ℝ) : Nat :=
  (l.filter fun i => labels.get [i] = c).length

/-- `classes` lists the different labels in increasing order. -/
def IsClasses (labels : Tensor ℝ) (N : Nat) (classes : List ℝ) : Prop :=
  classes.Pairwise (· < ·) ∧ ∀ c, c ∈ classes ↔ ∃ i < N, labels.get [i] = c

end MuyGPyS
