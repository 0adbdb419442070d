import Verif.Model.Mpi

/-!
# Sequences of scatter calls, and `make_predict_tensors` / `make_train_tensors` under MPI

`MuyGPyS/_src/mpi_utils.py:56-115`, `gp/muygps.py:405-545`, `gp/multivariate_muygps.py:385-520`.

A program run by all ranks is, as far as messages are concerned, a sequence of scatters: rank 0
executes blocking sends in program order, every other rank executes blocking receives in program
order, and a rank may run arbitrarily far ahead of the others.
-/

namespace MuyGPyS.Mpi
open Py

/-- One scatter: the chunk lists rank 0 sends (one per tensor, one chunk per rank) and the number of
receives every other rank posts for it.  In `_chunk_tensor` (`_src/mpi_utils.py:74-88`) the number of
receives is the decorator's `return_count`. -/
structure Call (μ : Type _) where
  sends : List (List μ)
  recvs : Nat

/-- The network when all ranks start a program that consists of these scatters: rank 0's sends in
program order, and the total number of receives of every other rank — `_src/mpi_utils.py:56-116`. -/
def programNet {μ : Type _} (size : Nat) (calls : List (Call μ)) : Net μ where
  pending := calls.flatMap fun c => rootSends c.sends
  chan := fun _ => []
  toRecv := fun r => if 1 ≤ r ∧ r < size then (calls.map Call.recvs).sum else 0
  got := fun _ => []

/-- `_chunk_tensor(tensors, return_count=len(tensors))` executed by every rank —
`_src/mpi_utils.py:74-88`: the scatter, and rank 0's local chunks. -/
def chunkTensor {α : Type _} (size : Nat) (tensors : List (List α)) :
    Res (List (Call (List α)) × List (List α)) := do
  let tc ← rootChunks size tensors
  pure ([⟨tc, tensors.length⟩], rootLocal tc)

/-- `make_predict_tensors` (`others = [batch_nn_targets]`) or `make_train_tensors`
(`others = [batch_targets, batch_nn_targets]`) in the MPI backend — `gp/muygps.py:405-545` under
`@mpi_chunk(return_count=3 or 4)`.

Only rank 0 evaluates the body (`_chunk_function_tensor`, `_src/mpi_utils.py:91-96`).  The body calls
the deformation's `crosswise_tensor` and `pairwise_tensor` with `disable_mpi=True`, but the metric
they use was built from the MPI versions of `_crosswise_tensor` and `_pairwise_tensor`
(`gp/deformation/metric.py:18`, `_src/gp/tensors/mpi.py:56-87`), which scatter their result: rank 0
sends the rows of the numpy difference tensors and keeps its own chunk, and `metric` is applied to
that chunk.  Then the outer decorator scatters these and `others`, whose rows are cut with the chunk
sizes of the first tensor.  Every other rank executes the outer receives only.

`cross` and `pair` are the rows (along the batch axis) of the numpy difference tensors, `metric` the
row-wise rest of the deformation method (the identity for `DifferenceIsotropy`/`Anisotropy`). -/
def makeTensors {α : Type _} (metric : α → α) (size : Nat) (cross pair : List α)
    (others : List (List α)) : Res (List (Call (List α)) × List (List α)) := do
  let innerCross ← rootChunks size [cross]
  let innerPair ← rootChunks size [pair]
  let tensors := (rootLocal innerCross).flatten.map metric ::
    (rootLocal innerPair).flatten.map metric :: others
  let outer ← rootChunks size tensors
  pure ([⟨innerCross, 0⟩, ⟨innerPair, 0⟩, ⟨outer, tensors.length⟩], rootLocal outer)

/-- What a serial run returns: `gp/muygps.py:466-475, 528-545` in the numpy backend. -/
def serialTensors {α : Type _} (metric : α → α) (cross pair : List α) (others : List (List α)) :
    List (List α) :=
  cross.map metric :: pair.map metric :: others

/-- Steps when `send` never buffers (a synchronous send: MPI may choose this for large messages) — `_src/mpi_utils.py:56-72`. -/
inductive SyncReach {μ : Type _} (s0 : Net μ) : Net μ → Prop
  | refl : SyncReach s0 s0
  | rendezvous {s : Net μ} {r : Nat} {m : μ} {rest : List (Nat × μ)} (hs : SyncReach s0 s)
      (h : s.pending = (r, m) :: rest) (hr : 0 < s.toRecv r) :
      SyncReach s0 { s with pending := rest, toRecv := upd s.toRecv r (s.toRecv r - 1),
                            got := upd s.got r (s.got r ++ [m]) }

end MuyGPyS.Mpi
