import Verif.Model.Lookup
import Verif.Spec.Neighbors

/-! # What an approximate index promises -/

namespace MuyGPyS
open Py

/-- An answer lists as many different training points as asked for, nearest first. Nothing is said about the points it does not list. -/
def Hnsw.Sound (h : Hnsw) : Prop :=
  h.train.shape = [h.N, h.f] ∧
    ∀ q k l, h.answer q k = some l → l.length = k ∧ l.Nodup ∧ (∀ i ∈ l, i < h.N) ∧
      l.Pairwise fun a b => h.dist q (rowPt h.train h.f a) ≤ h.dist q (rowPt h.train h.f b)

/-- The index finds enough points for every row of a table. -/
def Hnsw.Finds (h : Hnsw) (Q : Tensor ℝ) (m k : Nat) : Prop := ∀ p < m, h.answer (rowPt Q h.f p) k ≠ none

end MuyGPyS
