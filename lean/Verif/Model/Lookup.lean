import Verif.Model.Workflow
import Verif.Model.Config

/-!
# Model of `NN_Wrapper` with both methods: exact (`Model/Neighbors`) and approximate (`hnswlib`) — `neighbors.py:20-262`

`hnswlib.Index` enters as an arbitrary partial function: its answer to a query and a count is a list of labels, or none when it finds fewer
points than asked for (`knn_query` then raises `RuntimeError`). Labels are the row numbers of `add_items`. What the answers satisfy is the
contract `Hnsw.Sound` (`Spec/Lookup`). A query with the wrong number of features is undefined in hnswlib; here it raises.
-/

namespace MuyGPyS
open Py

/-- `NN_Wrapper` with `nn_method="hnsw"` after construction — `neighbors.py:83-88,107-121`. `dist` is what the index reports: the squared Euclidean
distance for `space="l2"`. -/
structure Hnsw where
  N : Nat
  f : Nat
  train : Tensor ℝ
  nnCount : Nat
  dist : (Fin f → ℝ) → (Fin f → ℝ) → ℝ
  answer : (Fin f → ℝ) → Nat → Option (List Nat)

open Classical in
/-- `_get_nns`, approximate method — `neighbors.py:239-240,251-262`. -/
noncomputable def Hnsw.query (h : Hnsw) (samples : Tensor ℝ) (k : Nat) : Res (Tensor Int × Tensor ℝ) :=
  let s := asTable samples
  match s.shape with
  | [m, g] =>
    if g ≠ h.f then .error .runtime
    else if ∃ i < m, h.answer (rowPt s h.f i) k = none then .error .runtime
    else
      let nn (i j : Nat) : Nat := ((h.answer (rowPt s h.f i) k).getD []).getD j 0
      .ok (Tensor.ofFn [m, k] fun idx => (nn (idx.getD 0 0) (idx.getD 1 0) : Int),
        Tensor.ofFn [m, k] fun idx => h.dist (rowPt s h.f (idx.getD 0 0)) (rowPt h.train h.f (nn (idx.getD 0 0) (idx.getD 1 0))))
  | _ => .error .runtime

/-- An `NN_Wrapper` of either method — `neighbors.py:73-127`. -/
inductive Lookup
  | exact (w : NNWrapper)
  | hnsw (h : Hnsw)

/-- A library that builds an index from a table: the metric it uses, whether `_get_nns` squares its distances (scikit-learn only), its answers — `neighbors.py:85-106`. -/
structure SkFit where
  dist : (f : Nat) → (Fin f → ℝ) → (Fin f → ℝ) → ℝ
  squared : Bool
  answer : (N f : Nat) → Tensor ℝ → (Fin f → ℝ) → Nat → List Nat

/-- See `SkFit`; the answers are partial — `neighbors.py:107-121`. -/
structure HnswFit where
  dist : (f : Nat) → (Fin f → ℝ) → (Fin f → ℝ) → ℝ
  answer : (N f : Nat) → Tensor ℝ → (Fin f → ℝ) → Nat → Option (List Nat)

/-- `NN_Wrapper(train, nn_count, nn_method, ...)` — `neighbors.py:73-127`; `enabled` is `config.state.hnswlib_enabled`. `fit` refuses an empty table
(`ValueError`), as does the unpacking of a shape that is not two-dimensional. -/
def Lookup.make (sk : SkFit) (hl : HnswFit) (enabled : Bool) (train : Tensor ℝ) (nnCount : Nat) (method : String) : Res Lookup :=
  let t := asTable train
  match t.shape with
  | [N, f] =>
    if Conf.pyLower method = "exact" then
      if N = 0 then .error .value else .ok (.exact ⟨N, f, t, nnCount, sk.dist f, sk.squared, sk.answer N f t⟩)
    else if Conf.pyLower method = "hnsw" then
      if enabled then .ok (.hnsw ⟨N, f, t, nnCount, hl.dist f, hl.answer N f t⟩) else .error .moduleNotFound
    else .error .notImplemented
  | _ => .error .value

/-- `get_nns` — `neighbors.py:129-167`. -/
noncomputable def Lookup.getNns (l : Lookup) (test : Tensor ℝ) : Res (Tensor Int × Tensor ℝ) :=
  match l with
  | .exact w => w.getNns test
  | .hnsw h => h.query test h.nnCount

/-- `get_batch_nns` — `neighbors.py:169-211`. -/
noncomputable def Lookup.getBatchNns (l : Lookup) (batch : Tensor Int) : Res (Tensor Int × Tensor ℝ) :=
  match l with
  | .exact w => w.getBatchNns batch
  | .hnsw h => do
    let samples ← h.train.take batch
    let r ← h.query samples (h.nnCount + 1)
    return (dropFirstCol r.1, dropFirstCol r.2)

/-- `regress_any` with either index — `examples/regress.py:639-662`. -/
noncomputable def regressLookup (bessel : Flt → ℝ → ℝ) (R : Regressor) (l : Lookup) (test train targets : Tensor ℝ) :
    Res (Tensor ℝ × Tensor ℝ) :=
  match test.shape with
  | [] => .error .index
  | m :: _ => do
    let nn ← l.getNns test
    regressFromIndices bessel R (arange m) nn.1 test train targets

end MuyGPyS
