import Verif.Model.MpiCalls

/-!
# What a distributed call promises
-/

namespace MuyGPyS.Mpi

/-- No rank can move any more. -/
def Net.Terminal {μ : Type _} (s : Net μ) : Prop := ∀ t, ¬ Step s t

/-- `j`-th tensor assembled from all ranks in rank order: rank 0's local result and what the others
received (a rank that has received no `j`-th message contributes no rows). -/
def gathered {α : Type _} (size : Nat) (local0 : List (List α)) (s : Net (List α)) (j : Nat) :
    List α :=
  (local0.getD j []) ++ ((List.range (size - 1)).map fun i => (s.got (i + 1)).getD j []).flatten

/-- A distributed call behaves like the serial call: whatever the schedule, when all ranks are done
every message has been received, every rank has received one chunk per tensor, and gathering the
chunks of each tensor in rank order gives the serial tensor. -/
def LikeSerial {α : Type _} (size : Nat) (calls : List (Call (List α))) (local0 : List (List α))
    (serial : List (List α)) : Prop :=
  ∀ s, Reach (programNet size calls) s → s.Terminal →
    local0.length = serial.length ∧
    (∀ r, 1 ≤ r → r < size → s.chan r = [] ∧ (s.got r).length = serial.length) ∧
    ∀ j, (h : j < serial.length) → gathered size local0 s j = serial[j]

end MuyGPyS.Mpi
