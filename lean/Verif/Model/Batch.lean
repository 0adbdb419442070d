import Verif.Model.Neighbors
import Mathlib.Data.Real.Archimedean
import Mathlib.Data.Finset.Sort

/-!
# Model of `optimize/batch.py`

One-dimensional index arrays are lists. `np.random.choice(·, k, replace=False)` enters as the list of
the positions it draws (`draw`, contract `IsDraw` in `Spec/Batch.lean`).
-/

namespace MuyGPyS
open Py

/-- `np.iarray(x)` of a float — `_src/math/numpy.py:96`: conversion to a 64-bit integer type truncates
towards zero (overflow not modelled). -/
noncomputable def truncInt (x : ℝ) : ℤ := if 0 ≤ x then ⌊x⌋ else ⌈x⌉

/-- An index list as a one-dimensional integer array — `optimize/batch.py:98`. -/
def ofNats (l : List Nat) : Tensor Int := ⟨[l.length], fun k => (l.getD k 0 : Int)⟩

/-- `t[l, :]` of a matrix with `k` columns — `optimize/batch.py:111,179`. -/
def selectRows {α : Type} (t : Tensor α) (k : Nat) (l : List Nat) : Tensor α :=
  Tensor.ofFn [l.length, k] fun idx => t.get [l.getD (idx.getD 0 0) 0, idx.getD 1 0]

/-- `np.random.choice(pop, k, replace=False)` when it draws the positions `draw`: `ValueError` for a
negative size and for more draws than there are candidates — `optimize/batch.py:171-173,223`. -/
def choice (pop : Nat) (k : Int) (draw : List Nat) : Res (List Nat) :=
  if k < 0 ∨ (pop : Int) < k then .error .value else .ok draw

/-- `np.max(row) != np.min(row)` after conversion to integers — `optimize/batch.py:105-108,151-154`. -/
noncomputable def nonconstantRow (row : List ℝ) : Bool :=
  (row.map truncInt).max? != (row.map truncInt).min?

/-- The neighbours of every labelled point and the positions whose neighbours have different labels —
`optimize/batch.py:98-108,145-154`. `np.max` over an empty axis is a `ValueError`. -/
noncomputable def filteredIndices (w : NNWrapper) (labels : Tensor ℝ) : Res (List Nat × Tensor Int) :=
  match labels.shape with
  | [L] => do
    let nn ← w.getBatchNns (arange L)
    let nl ← labels.take nn.1
    if w.nnCount = 0 then .error .value else
    .ok ((List.range L).filter (fun i => nonconstantRow ((List.range w.nnCount).map fun j => nl.get [i, j])), nn.1)
  | _ => .error .index

/-- `full_filtered_batch` — `optimize/batch.py:76-112`. -/
noncomputable def fullFilteredBatch (w : NNWrapper) (labels : Tensor ℝ) : Res (List Nat × Tensor Int) := do
  let r ← filteredIndices w labels
  return (r.1, selectRows r.2 w.nnCount r.1)

open Classical in
/-- `np.unique(labels)`: the different labels in increasing order — `optimize/batch.py:155`. -/
noncomputable def classesOf (labels : Tensor ℝ) : List ℝ :=
  (((List.range (labels.shape.getD 0 0)).map labels.flat).toFinset).sort (· ≤ ·)

open Classical in
/-- The filtered points with label `c`, `np.where(np.logical_and(nonconstant_mask, labels == c))[0]` —
`optimize/batch.py:159-162`. -/
noncomputable def classIndices (labels : Tensor ℝ) (filtered : List Nat) (c : ℝ) : List Nat :=
  filtered.filter fun i => labels.flat i = c

/-- `sample_balanced_batch` — `optimize/batch.py:115-180`; `draws` are the positions drawn for each class.
`int(batch_count / class_count)` truncates towards zero (no rounding of the quotient modelled);
`labels` is not empty here because the neighbour query refuses that. -/
noncomputable def sampleBalancedBatch (w : NNWrapper) (labels : Tensor ℝ) (batchCount : Int)
    (draws : List (List Nat)) : Res (List Nat × Tensor Int) := do
  let r ← filteredIndices w labels
  let classes := classesOf labels
  let each := batchCount.tdiv classes.length
  let parts ← classes.zipIdx.mapM fun ci => do
    let cands := classIndices labels r.1 ci.1
    let pos ← choice cands.length (min (cands.length : Int) each) (draws.getD ci.2 [])
    return pos.map fun p => cands.getD p 0
  return (parts.flatten, selectRows r.2 w.nnCount parts.flatten)

/-- `get_balanced_batch` — `optimize/batch.py:25-73`. -/
noncomputable def getBalancedBatch (w : NNWrapper) (labels : Tensor ℝ) (batchCount : Int)
    (draws : List (List Nat)) : Res (List Nat × Tensor Int) :=
  match labels.shape with
  | L :: _ =>
    if batchCount < (L : Int) then sampleBalancedBatch w labels batchCount draws else fullFilteredBatch w labels
  | [] => .error .type

/-- `sample_batch` — `optimize/batch.py:183-228`. -/
noncomputable def sampleBatch (w : NNWrapper) (batchCount : Int) (trainCount : Nat) (draw : List Nat) :
    Res (List Nat × Tensor Int) := do
  let idx ← (if batchCount < (trainCount : Int) then choice trainCount batchCount draw
    else .ok (List.range trainCount))
  let nn ← w.getBatchNns (ofNats idx)
  return (idx, nn.1)

end MuyGPyS
