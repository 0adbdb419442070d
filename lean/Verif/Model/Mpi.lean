import Verif.Py.Basic

/-!
# Model of `MuyGPyS/_src/mpi_utils.py`

A tensor is represented here by the list of its rows along the first (batch) axis; a row is an
arbitrary value of type `α` (a number, a matrix, …).
-/

namespace MuyGPyS.Mpi
open Py

/-- `_get_chunk_sizes` — `_src/mpi_utils.py:36-41`.
Simplification: `int(count / size)` goes through a float in Python; modelled as exact integer
division (they agree for `count < 2^53`). `count / 0` raises `ZeroDivisionError`. -/
def getChunkSizes (count size : Nat) : Res (List Nat) :=
  if size = 0 then .error .zeroDivision
  else
    let floor := count / size
    let remainder := count - floor * size
    .ok ((List.range size).map fun i => if i ≥ size - remainder then floor + 1 else floor)

/-- Python slice `arg[a : b]` of a sequence with `0 ≤ a`, `0 ≤ b` (indices clip) — `_src/mpi_utils.py:44-54`. -/
def pySlice {α : Type _} (arg : List α) (a b : Nat) : List α := (arg.take b).drop a

/-- `_prepare_parallel_data` — `_src/mpi_utils.py:44-53`.
`offsets[i] = sum(chunk_sizes[:i])`; result `ret[j][i]` is the slice of argument `j` for rank `i`. -/
def prepareParallelData {α : Type _} (size : Nat) (chunkSizes : List Nat) (args : List (List α)) :
    List (List (List α)) :=
  let offsets := (List.range size).map fun i => (chunkSizes.take i).sum
  args.map fun arg =>
    (List.range size).map fun i =>
      pySlice arg (offsets.getD i 0) (offsets.getD i 0 + chunkSizes.getD i 0)

/-- The part of `_chunk_tensor` executed on rank 0 before scattering —
`_src/mpi_utils.py:75-80`. `tensors` is the (non-empty) list of tensors to chunk; the chunk sizes
come from the *first* tensor's row count. `tensors[0]` of an empty list is an `IndexError`. -/
def rootChunks {α : Type _} (size : Nat) (tensors : List (List α)) :
    Res (List (List (List α))) :=
  match tensors with
  | [] => .error .index
  | t :: _ => do
    let chunkSizes ← getChunkSizes t.length size
    pure (prepareParallelData size chunkSizes tensors)

/-- `_consistent_unchunk_tensor` in MPI mode — `_src/mpi_utils.py:137-141`: `allgather` the local
tensors of ranks `0..size-1` and concatenate them in rank order (`vstack`/`concatenate` along the
first axis; the rank of the tensor does not matter at row level). -/
def unchunk {α : Type _} (locals_ : List (List α)) : List α := locals_.flatten

/-- `world.allreduce(x, op=SUM)` over the list of per-rank values (every rank gets the result);
used by `_consistent_reduce_scalar` (`_src/mpi_utils.py:153-159`) and by the MPI losses and scale. -/
def allreduceSum {α : Type _} [Add α] [OfNat α 0] (xs : List α) : α := xs.foldr (· + ·) 0

/-! ## The scatter protocol as a message-passing system

`_big_scatter` (`_src/mpi_utils.py:56-71`) sends chunk `i` of each tensor from rank 0 to rank `i`
(`i ≥ 1`) with a blocking `send`; every other rank executes one blocking `recv(source=0)` per
tensor. MPI guarantees FIFO order per (source, destination) pair.  A blocking standard-mode `send`
may either buffer the message or wait for the receiver; both behaviours are modelled
(`Step.buffer` and `Step.rendezvous`). -/

/-- Global state of the ranks while they execute `_chunk_tensor` — `_src/mpi_utils.py:56-89`. -/
structure Net (μ : Type _) where
  /-- messages rank 0 still has to send, in program order: (destination, payload) -/
  pending : List (Nat × μ)
  /-- buffered messages from rank 0 to each rank, oldest first -/
  chan : Nat → List μ
  /-- number of `recv` calls each rank `≥ 1` still has to execute -/
  toRecv : Nat → Nat
  /-- payloads already received by each rank, in order -/
  got : Nat → List μ

/-- The send statements executed by rank 0 for one `_chunk_tensor` call, in program order:
`for chunks in tensor_chunks: for i, chunk in enumerate(chunks): if i != 0: send(chunk, dest=i)`
— `_src/mpi_utils.py:64-68,84-85`. -/
def rootSends {μ : Type _} (tensorChunks : List (List μ)) : List (Nat × μ) :=
  tensorChunks.flatMap fun chunks =>
    (chunks.zipIdx.filter fun p => p.2 ≠ 0).map fun p => (p.2, p.1)

/-- Local result of rank 0: `my_chunk = chunk` for `i == 0` — `_src/mpi_utils.py:65-66`. -/
def rootLocal {μ : Type _} (tensorChunks : List (List μ)) : List μ :=
  tensorChunks.filterMap fun chunks => chunks.head?

/-- Initial network state: rank 0 has computed `tensorChunks`, each of the ranks
`1..size-1` will execute `returnCount` receives (`tensor_chunks = [None] * return_count`,
`_src/mpi_utils.py:82-85`). Ranks `≥ size` do not exist. -/
def initNet {μ : Type _} (size returnCount : Nat) (tensorChunks : List (List μ)) : Net μ where
  pending := rootSends tensorChunks
  chan := fun _ => []
  toRecv := fun r => if 1 ≤ r ∧ r < size then returnCount else 0
  got := fun _ => []

/-- `f` with the value at `r` replaced — `_src/mpi_utils.py:56-89`. -/
def upd {β : Type _} (f : Nat → β) (r : Nat) (v : β) : Nat → β := fun r' => if r' = r then v else f r'

/-- One step of the system under some schedule — `_src/mpi_utils.py:56-72`. -/
inductive Step {μ : Type _} : Net μ → Net μ → Prop
  /-- rank 0's current `send` completes by buffering the message -/
  | buffer {s : Net μ} {r : Nat} {m : μ} {rest : List (Nat × μ)} (h : s.pending = (r, m) :: rest) :
      Step s { s with pending := rest, chan := upd s.chan r (s.chan r ++ [m]) }
  /-- rank 0's current `send` is matched directly by the waiting receiver -/
  | rendezvous {s : Net μ} {r : Nat} {m : μ} {rest : List (Nat × μ)}
      (h : s.pending = (r, m) :: rest) (hc : s.chan r = []) (hr : 0 < s.toRecv r) :
      Step s { s with pending := rest, toRecv := upd s.toRecv r (s.toRecv r - 1),
                      got := upd s.got r (s.got r ++ [m]) }
  /-- rank `r`'s `recv` takes the oldest buffered message -/
  | recv {s : Net μ} {r : Nat} {m : μ} {ms : List μ} (hc : s.chan r = m :: ms)
      (hr : 0 < s.toRecv r) :
      Step s { s with chan := upd s.chan r ms, toRecv := upd s.toRecv r (s.toRecv r - 1),
                      got := upd s.got r (s.got r ++ [m]) }

/-- States reachable under any schedule — `_src/mpi_utils.py:56-89`. -/
inductive Reach {μ : Type _} (s0 : Net μ) : Net μ → Prop
  | refl : Reach s0 s0
  | step {s t : Net μ} : Reach s0 s → Step s t → Reach s0 t

/-- Runs of exactly `n` steps — `_src/mpi_utils.py:56-89`. -/
inductive Run {μ : Type _} : Nat → Net μ → Net μ → Prop
  | zero {s : Net μ} : Run 0 s s
  | succ {n : Nat} {s t u : Net μ} : Run n s t → Step t u → Run (n + 1) s u

/-! ## `mpi_chunk` around a function that already chunks

In the MPI backend `_pairwise_tensor`/`_crosswise_tensor` are themselves
`_chunk_function_tensor(numpy version)` (`_src/gp/tensors/mpi.py:56-87`) and
`metric.pairwise_distances` applies the metric to their result (`gp/deformation/metric.py`), while
`Isotropy.pairwise_tensor` etc. carry `@mpi_chunk(return_count=1)`
(`gp/deformation/isotropy.py:91,120,209,238`, `gp/deformation/anisotropy.py:72,102`).
Because `_chunk_function_tensor` evaluates `func` on rank 0 only (`_src/mpi_utils.py:91-96`), a call
of the decorated method makes rank 0 execute two scatters (first the rows of the numpy tensor, then
the chunks of `metric` applied to rank 0's own first chunk), while every other rank executes a
single `recv`. -/

/-- Outer tensor on rank 0: `metric` applied to rank 0's chunk of the numpy result — `_src/mpi_utils.py:91-116`. -/
def nestedOuter {α : Type _} (metric : α → α) (size : Nat) (rows : List α) : Res (List (List α)) := do
  let inner ← rootChunks size [rows]
  let local0 := (rootLocal inner).flatten
  let outer ← rootChunks size [local0.map metric]
  pure (outer.headD [])

/-- The network state after rank 0 has evaluated the decorated method: sends of the inner scatter
followed by sends of the outer scatter; each other rank has one `recv` to do — `_src/mpi_utils.py:91-116`. -/
def nestedInit {α : Type _} (metric : α → α) (size : Nat) (rows : List α) :
    Res (Net (List α)) := do
  let inner ← rootChunks size [rows]
  let outer ← nestedOuter metric size rows
  pure { initNet size 1 inner with pending := rootSends inner ++ rootSends [outer] }

end MuyGPyS.Mpi
