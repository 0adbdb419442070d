import Verif.Model.Tensors

/-!
# Model of `MuyGPyS/neighbors.py` and of the neighbourhood updates of fast prediction

Only `nn_method="exact"` is modelled: `sklearn.neighbors.NearestNeighbors` enters as an arbitrary
function `answer` with the contract `NNWrapper.Exact` (`Spec/Neighbors.lean`); ties may be broken in
any way. The approximate `hnsw` method and the choice of the method are in `Model/Lookup`.
-/

namespace MuyGPyS
open Py

/-- Row `i` of a two-dimensional table — `neighbors.py:239-262`. -/
def rowPt (X : Tensor ℝ) (f i : Nat) : Fin f → ℝ := fun c => X.get [i, c]

/-- `NN_Wrapper` after construction — `neighbors.py:71-127`: the fitted training table, `nn_count`,
the metric of the scikit-learn object, whether `_get_nns` squares the distances
(`metric == "minkowski" and p == 2`), and the answers of `kneighbors` to (query, `n_neighbors`). -/
structure NNWrapper where
  N : Nat
  f : Nat
  train : Tensor ℝ
  nnCount : Nat
  dist : (Fin f → ℝ) → (Fin f → ℝ) → ℝ
  squared : Bool
  answer : (Fin f → ℝ) → Nat → List Nat

/-- `if samples.ndim == 1: samples = samples[:, None]` — `neighbors.py:84-85,239-240`. -/
def asTable (samples : Tensor ℝ) : Tensor ℝ :=
  match samples.shape with
  | [m] => ⟨[m, 1], samples.flat⟩
  | _ => samples

/-- `_get_nns` — `neighbors.py:213-264`, exact method. scikit-learn refuses an empty query, a wrong
feature count, `n_neighbors ≤ 0` and `n_neighbors` larger than the training set (`ValueError`). -/
noncomputable def NNWrapper.query (w : NNWrapper) (samples : Tensor ℝ) (k : Nat) :
    Res (Tensor Int × Tensor ℝ) :=
  let s := asTable samples
  match s.shape with
  | [m, g] =>
    if m = 0 ∨ g ≠ w.f ∨ k = 0 ∨ w.N < k then .error .value
    else
      let nn (i j : Nat) : Nat := (w.answer (rowPt s w.f i) k).getD j 0
      let d (i j : Nat) : ℝ := w.dist (rowPt s w.f i) (rowPt w.train w.f (nn i j))
      .ok (Tensor.ofFn [m, k] fun idx => (nn (idx.getD 0 0) (idx.getD 1 0) : Int),
        Tensor.ofFn [m, k] fun idx =>
          if w.squared then d (idx.getD 0 0) (idx.getD 1 0) ^ 2 else d (idx.getD 0 0) (idx.getD 1 0))
  | _ => .error .value

/-- `get_nns` — `neighbors.py:129-167`. -/
noncomputable def NNWrapper.getNns (w : NNWrapper) (test : Tensor ℝ) : Res (Tensor Int × Tensor ℝ) :=
  w.query test w.nnCount

/-- `t[:, 1:]` of a matrix — `neighbors.py:211`. -/
def dropFirstCol {α : Type} (t : Tensor α) : Tensor α :=
  match t.shape with
  | [m, k] => Tensor.ofFn [m, k - 1] fun idx => t.get [idx.getD 0 0, idx.getD 1 0 + 1]
  | _ => t

/-- `get_batch_nns` — `neighbors.py:169-211`: query the training points themselves for `nn_count + 1`
neighbours and drop the first column. -/
noncomputable def NNWrapper.getBatchNns (w : NNWrapper) (batch : Tensor Int) :
    Res (Tensor Int × Tensor ℝ) := do
  let samples ← w.train.take batch
  let r ← w.query samples (w.nnCount + 1)
  return (dropFirstCol r.1, dropFirstCol r.2)

/-- `np.arange(0, n)` — `optimize/batch.py:98,226`, `examples/regress.py:649`. -/
def arange (n : Nat) : Tensor Int := ⟨[n], fun k => (k : Int)⟩

/-- `_fast_nn_update` — `_src/gp/tensors/numpy.py:97-108`: `concatenate((arange(N)[:, None], nn[:, :-1]), axis=1)`. -/
def fastNnUpdate (nn : Tensor Int) : Res (Tensor Int) :=
  match nn.shape with
  | [N, k] => .ok (Tensor.ofFn [N, 1 + (k - 1)] fun idx =>
      if idx.getD 1 0 = 0 then (idx.getD 0 0 : Int) else nn.get [idx.getD 0 0, idx.getD 1 0 - 1])
  | _ => .error .index

/-- `_make_fast_predict_tensors` — `_src/gp/tensors/numpy.py:18-37`: the same insertion, with the row
count taken from the training features (a mismatch is a `ValueError` of `concatenate`). -/
def makeFastPredictTensors (nn : Tensor Int) (trainFeatures trainTargets : Tensor ℝ) :
    Res (Tensor ℝ × Tensor ℝ) :=
  match trainFeatures.shape, nn.shape with
  | N :: _, [N', _] =>
    if N ≠ N' then .error .value
    else do
      let nn' ← fastNnUpdate nn
      let pair ← pairwiseTensor trainFeatures nn'
      let y ← trainTargets.take nn'
      return (pair, y)
  | _, _ => .error .index

end MuyGPyS
