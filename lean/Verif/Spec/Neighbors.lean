import Verif.Model.Neighbors

/-! # What a neighbour query promises -/

namespace MuyGPyS
open Py

/-- `l` lists `k` different members of the candidate set `S` in order of non-decreasing distance `d`,
and no unlisted candidate is nearer than a listed one. -/
structure Nearest (S : Nat → Prop) (d : Nat → ℝ) (k : Nat) (l : List Nat) : Prop where
  length : l.length = k
  nodup : l.Nodup
  mem : ∀ i ∈ l, S i
  sorted : l.Pairwise fun a b => d a ≤ d b
  nearest : ∀ i ∈ l, ∀ j, S j → j ∉ l → d i ≤ d j

/-- The contract of the exact nearest neighbour index: every admissible query is answered with
nearest training points (in any order among equidistant points). -/
def NNWrapper.Exact (w : NNWrapper) : Prop :=
  w.train.shape = [w.N, w.f] ∧
    ∀ q k, k ≤ w.N → Nearest (· < w.N) (fun i => w.dist q (rowPt w.train w.f i)) k (w.answer q k)

/-- Row `i` of an index matrix with `k` columns. -/
def rowList {α : Type} (t : Tensor α) (k i : Nat) : List α := (List.range k).map fun j => t.get [i, j]

end MuyGPyS
