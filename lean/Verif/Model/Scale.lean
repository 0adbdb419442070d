import Verif.Model.Noise
import Verif.Model.Mpi
import Mathlib.Algebra.BigOperators.Fin
import Mathlib.Data.List.Sort

/-!
# Model of the variance-scale optimisers: `_src/optimize/scale/{numpy,mpi}.py`,
`gp/hyperparameter/scale.py`
-/

namespace MuyGPyS
open Py

/-- `_analytic_scale_optim_unnormalized` — `_src/optimize/scale/numpy.py:9-15`:
`sum(einsum("ijk,ijk->ik", y, solve(Kin, y)))` with `y = np.atleast_3d(nn_targets)`.
Simplification: leading axes of different length raise (NumPy would broadcast length 1). -/
noncomputable def scaleUnnormalized (Kin nnTargets : Tensor ℝ) : Res ℝ :=
  let y := nnTargets.atleast3d
  match y.shape with
  | [b, n, r] => do
    let F ← Tensor.solve [b] n r Kin y
    pure (∑ i ∈ Finset.range b, ∑ k ∈ Finset.range r, ∑ j ∈ Finset.range n,
      y.get [i, j, k] * F.get [i, j, k])
  | _ => .error .value

/-- `_analytic_scale_optim` — `_src/optimize/scale/numpy.py:18-34` with the default
`batch_dim_count = 1` (no caller passes another value). For an empty batch NumPy divides by zero and
returns `nan`; the model returns 0. -/
noncomputable def analyticScale (Kin nnTargets : Tensor ℝ) : Res ℝ := do
  let batchDimCount := 1
  let inDimCount := (Kin.ndim - batchDimCount) / 2
  let batchShape := Kin.shape.take batchDimCount
  let inShape := Kin.shape.drop (batchDimCount + inDimCount)
  let batchSize := batchShape.prod
  let inSize := inShape.prod
  let KinFlat ← Kin.reshape (batchShape ++ [inSize, inSize])
  let nnTargetsFlat ← nnTargets.reshape (batchShape ++ [inSize, 1])
  let s ← scaleUnnormalized KinFlat nnTargetsFlat
  pure (s / ((batchSize * inSize : Nat) : ℝ))

/-- the part of `_analytic_scale_optim` (MPI) a rank computes locally —
`_src/optimize/scale/mpi.py:19-33`: (local sum, local batch size, `in_size`) -/
noncomputable def localScale (loc : Tensor ℝ × Tensor ℝ) : Res (ℝ × Nat × Nat) := do
  let inDimCount := (loc.1.ndim - 1) / 2
  let batchShape := loc.1.shape.take 1
  let inShape := loc.1.shape.drop (1 + inDimCount)
  let inSize := inShape.prod
  let KinFlat ← loc.1.reshape (batchShape ++ [inSize, inSize])
  let nnTargetsFlat ← loc.2.reshape (batchShape ++ [inSize, 1])
  let s ← scaleUnnormalized KinFlat nnTargetsFlat
  pure (s, batchShape.prod, inSize)

/-- `_analytic_scale_optim` (MPI) — `_src/optimize/scale/mpi.py:19-36`: the local sums and the
batch sizes are reduced over the ranks. `ranks` lists the ranks' local tensors. `in_size` is the
local one; it is the same on all ranks (rank 0 is shown). -/
noncomputable def analyticScaleMpi (ranks : List (Tensor ℝ × Tensor ℝ)) : Res ℝ := do
  let loc ← ranks.mapM localScale
  let globalSum := Mpi.allreduceSum (loc.map fun l => l.1)
  let globalBatchCount := Mpi.allreduceSum (loc.map fun l => l.2.1)
  let inSize := (loc.map fun l => l.2.2).headD 0
  pure (globalSum / ((inSize * globalBatchCount : Nat) : ℝ))

/-- rows `a, …, a + c - 1` along the first axis, `t[a : a + c]` (in range) — the slices made by
`_prepare_parallel_data`, `_src/mpi_utils.py:44-53` -/
def Tensor.rows (t : Tensor ℝ) (a c : Nat) : Tensor ℝ :=
  ⟨c :: t.shape.tail, fun k => t.flat (a * t.shape.tail.prod + k)⟩

/-- `_chunk_tensor` of one tensor into its per-rank local tensors — `_src/mpi_utils.py:74-88`. -/
def chunkTensor (size : Nat) (t : Tensor ℝ) : Res (List (Tensor ℝ)) := do
  let cs ← Mpi.getChunkSizes (t.shape.headD 0) size
  pure ((List.range size).map fun i => Tensor.rows t (cs.take i).sum (cs.getD i 0))

/-- scalar times tensor — `gp/hyperparameter/scale.py:205-220`. -/
noncomputable def smulT (s : ℝ) (t : Tensor ℝ) : Tensor ℝ := t.map fun x => s * x

/-- `AnalyticScale.get_opt_fn(muygps)(Kin, nn_targets)` —
`gp/hyperparameter/scale.py:205-217`. The stored value is a scalar (enforced by
`_check_positive_float`), so the early return never happens. `ν` is the model's noise; the trial
`noise` keyword is *not* passed to `perturb` (`:206,214`). -/
noncomputable def analyticOpt (ν : Noise) (iterationCount : Nat) (Kin nnTargets : Tensor ℝ) : Res ℝ := do
  let K ← ν.perturb Kin
  let scale ← analyticScale K nnTargets
  (List.range' 1 (iterationCount - 1)).foldlM (init := scale) fun scale _ => do
    let s ← analyticScale (smulT scale K) nnTargets
    pure (0.5 * (scale + s))

/-- `ScaleFn._check_positive_integer` — `gp/hyperparameter/scale.py:41-46`: negative integers are
rejected, 0 is accepted. -/
def checkPositiveInteger (count : Int) : Res Nat :=
  if count < 0 then .error .value else .ok count.toNat

/-- `np.median`: the middle element of the sorted values, or the mean of the two middle ones;
`none` stands for the `nan` of an empty list — `gp/hyperparameter/scale.py:291`. -/
noncomputable def median (l : List ℝ) : Option ℝ :=
  let s := l.mergeSort (fun a b => decide (a ≤ b))
  if l = [] then none
  else if l.length % 2 = 1 then some (s.getD (l.length / 2) 0)
  else some ((s.getD (l.length / 2 - 1) 0 + s.getD (l.length / 2) 0) / 2)

/-- One iteration of the sampling loop — `gp/hyperparameter/scale.py:279-289`: sort the sampled indices, select
`pK[:, s, :][:, :, s]` and `nn_targets[:, s]`, and estimate. -/
noncomputable def downSampleOne (b downCount : Nat) (pK nnTargets : Tensor ℝ) (sample : List Nat) : Res ℝ :=
  let s := sample.mergeSort (fun a b => decide (a ≤ b))
  let pKdown := Tensor.ofFn [b, downCount, downCount] fun idx =>
    pK.get [idx.getD 0 0, s.getD (idx.getD 1 0) 0, s.getD (idx.getD 2 0) 0]
  let yDown := Tensor.ofFn (b :: downCount :: nnTargets.shape.drop 2) fun idx =>
    nnTargets.get (idx.getD 0 0 :: s.getD (idx.getD 1 0) 0 :: idx.drop 2)
  scaleUnnormalized pKdown yDown

/-- `DownSampleScale.get_opt_fn(muygps)(Kin, nn_targets)` — `gp/hyperparameter/scale.py:269-291`.
`samples` lists what the calls of `np.random.choice` return, one index array per iteration. `none`
is `nan` (no iterations, or `0.0 / 0`). -/
noncomputable def downSampleOpt (ν : Noise) (downCount : Nat) (samples : List (List Nat))
    (Kin nnTargets : Tensor ℝ) : Res (Option ℝ) :=
  match Kin.shape with
  | [b, n, _] =>
    if n ≤ downCount then .error .value
    else do
      let pK ← ν.perturb Kin
      let scales ← samples.mapM (downSampleOne b downCount pK nnTargets)
      pure (if downCount * b = 0 then none
        else (median scales).map fun m => m / ((downCount * b : Nat) : ℝ))
  | _ => .error .value

end MuyGPyS
