import Verif.Model.Posterior
import Verif.Model.Scale
import Verif.Model.Tensors
import Verif.Model.Shear
import Verif.Model.Loss
import Mathlib.Analysis.SpecialFunctions.Gamma.Basic
import Mathlib.Analysis.SpecialFunctions.Pow.Real

/-!
# Model of the torch and jax implementations

`_src/gp/{tensors,noise,muygps,kernels,kernels/shear}/{torch,jax}.py`,
`_src/optimize/{scale,loss}/{torch,jax}.py`.

Only functions whose text differs from the NumPy one in more than the module name are written out; the
others (closed-form kernels, `_F2`, `_fast_nn_update`, homoscedastic and shear noise, `_muygps_posterior_mean`
and `_muygps_diagonal_variance` of torch, …) are the same expressions and share the NumPy model.

Simplifications: where NumPy raises `LinAlgError` torch raises an error of its own and jax returns
non-finite numbers; both are `LinAlgError` here. jax clamps out-of-range indices where NumPy and torch
raise; `IndexError` here. Both concern inputs that NumPy refuses.
-/

namespace MuyGPyS
namespace Backend
open Py

/-! ### difference tensors -/

/-- `_crosswise_tensor` (torch and jax) — `_src/gp/tensors/torch.py:47-69`,
`_src/gp/tensors/jax.py:52-68`: `locations[:, None, :] - points`. A location vector has no second axis:
`IndexError`. Locations and points of other ranks are not modelled (`ValueError`). -/
def crosswise (data nnData : Tensor ℝ) (idx nn : Tensor Int) : Res (Tensor ℝ) := do
  let locs ← data.take idx
  let pts ← nnData.take nn
  match locs.shape, pts.shape with
  | [b, f], [b', n, f'] => Tensor.bop (· - ·) ⟨[b, 1, f], locs.flat⟩ ⟨[b', n, f'], pts.flat⟩
  | [], _ => .error .index
  | [_], _ => .error .index
  | _, _ => .error .value

/-- `_pairwise_differences` (torch and jax) — `_src/gp/tensors/torch.py:72-78`,
`_src/gp/tensors/jax.py:71-78`. -/
def pairwiseDifferences (pts : Tensor ℝ) : Res (Tensor ℝ) :=
  match pts.shape with
  | [b, n, f] => Tensor.bop (· - ·) ⟨[b, n, 1, f], pts.flat⟩ ⟨[b, 1, n, f], pts.flat⟩
  | [n, f] => Tensor.bop (· - ·) ⟨[n, 1, f], pts.flat⟩ ⟨[1, n, f], pts.flat⟩
  | _ => .error .value

/-- `_pairwise_tensor` (torch and jax) — `_src/gp/tensors/torch.py:58-63`,
`_src/gp/tensors/jax.py:81-87`. -/
def pairwise (data : Tensor ℝ) (nn : Tensor Int) : Res (Tensor ℝ) := do
  let pts ← data.take nn
  pairwiseDifferences pts

/-! ### heteroscedastic noise -/

/-- The index triples `(repeat(arange(b), n), tile(arange(n), b), tile(arange(n), b))` as row-major
positions in a `(b, n, m)` tensor — `_src/gp/noise/numpy.py:61-65`, `torch.py:63-67`, `jax.py:66-70`. -/
def diagPositions (b n m : Nat) : List Nat :=
  (List.range (b * n)).map fun k => k / n * (n * m) + k % n * m + k % n

/-- `ret[indices] += vals` of NumPy and torch: the old values are read first, then every sum is stored,
so of several sums for one position the last one stays — `_src/gp/noise/numpy.py:66`, `_src/gp/noise/torch.py:68`. -/
def addBuffered (pos : List Nat) (vals : Nat → ℝ) (t : Nat → ℝ) : Nat → ℝ :=
  pos.zipIdx.foldl (fun acc p => Function.update acc p.1 (t p.1 + vals p.2)) t

/-- `ret.at[indices].add(vals)` of jax: sums for one position accumulate — `_src/gp/noise/jax.py:71`. -/
def addAccumulate (pos : List Nat) (vals : Nat → ℝ) (t : Nat → ℝ) : Nat → ℝ :=
  pos.zipIdx.foldl (fun acc p => Function.update acc p.1 (acc p.1 + vals p.2)) t

/-- `_heteroscedastic_perturb` with the in-place addition `add` — `_src/gp/noise/numpy.py:56-67`,
`torch.py:58-69`, `jax.py:60-73`. The noise tensor must have `b * n` entries (broadcasting a single
entry is not modelled here), the third axis must be long enough for the indices. -/
def heteroscedastic (add : List Nat → (Nat → ℝ) → (Nat → ℝ) → Nat → ℝ) (Kin noise : Tensor ℝ) : Res (Tensor ℝ) :=
  match Kin.shape with
  | [b, n, m] =>
    if m < n then .error .index
    else if noise.shape.prod = b * n then .ok ⟨[b, n, m], add (diagPositions b n m) noise.flat Kin.flat⟩
    else .error .value
  | _ => .error .value

/-! ### posterior -/

/-- `_muygps_posterior_mean_univariate` — `_src/gp/muygps/jax.py:47-58`. -/
noncomputable def jaxMeanUnivariate (Kin Kcross y : Tensor ℝ) : Res (Tensor ℝ) :=
  match Kin.shape, Kcross.shape, y.shape with
  | [b, n, _], [c, n'], [d, n''] => do
    let F ← Tensor.solve [b] n 1 Kin ⟨[c, n', 1], Kcross.flat⟩
    let r ← Tensor.matmulT [b] n 1 1 F ⟨[d, n'', 1], y.flat⟩
    r.reshape [b]
  | _, _, _ => .error .value

/-- `_muygps_posterior_mean_diagonal_multivariate` — `_src/gp/muygps/jax.py:61-73`. -/
noncomputable def jaxMeanDiagonal (Kin Kcross y : Tensor ℝ) : Res (Tensor ℝ) :=
  match Kin.shape, Kcross.shape, y.shape with
  | [b, n, _], [c, n'], [_, _, r] => do
    let F ← Tensor.solve [b] n 1 Kin ⟨[c, n', 1], Kcross.flat⟩
    let t ← Tensor.matmulT [b] n 1 r F y
    t.reshape [b, r]
  | _, _, _ => .error .value

/-- `F.swapaxes(-2, -1) @ Y` for a stack `F : (b, N, q)` and a matrix `Y : (b', N')`: `matmul` treats `Y` as
one matrix for the whole stack, so the inner axes to match are `N` and `b'` — `_src/gp/muygps/jax.py:71`. -/
noncomputable def matmulTMatrix (b N q : Nat) (F Y : Tensor ℝ) : Res (Tensor ℝ) :=
  match Y.shape with
  | [b', N'] =>
    if F.shape = [b, N, q] ∧ N = b' then
      .ok (Tensor.ofFn [b, q, N'] fun idx =>
        ∑ k ∈ Finset.range N, F.get [idx.getD 0 0, k, idx.getD 1 0] * Y.get [k, idx.getD 2 0])
    else .error .value
  | _ => .error .value

/-- `_muygps_posterior_mean_multivariate` — `_src/gp/muygps/jax.py:76-95`. -/
noncomputable def jaxMeanMultivariate (Kin Kcross y : Tensor ℝ) : Res (Tensor ℝ) :=
  match Kin.shape, Kcross.shape.getLast? with
  | b :: n :: r :: _, some q => do
    let K ← Kin.reshape [b, n * r, n * r]
    let C ← Kcross.reshape [b, n * r, q]
    let Y ← y.reshape [b, n * r]
    let F ← Tensor.solve [b] (n * r) q K C
    let t ← matmulTMatrix b (n * r) q F Y
    t.reshape [b, q]
  | _, _ => .error .value

/-- `_muygps_posterior_mean` (jax) — `_src/gp/muygps/jax.py:24-43`. -/
noncomputable def jaxMean (Kin Kcross y : Tensor ℝ) : Res (Tensor ℝ) :=
  if Kin.ndim = 3 then
    if y.ndim = 2 then jaxMeanUnivariate Kin Kcross y
    else if y.ndim = 3 then jaxMeanDiagonal Kin Kcross y
    else .error .value
  else jaxMeanMultivariate Kin Kcross y

/-- `_muygps_diagonal_variance` (jax) — `_src/gp/muygps/jax.py:98-151`. -/
noncomputable def jaxVariance (Kin Kcross Kout : Tensor ℝ) : Res (Tensor ℝ) :=
  match Kin.shape with
  | [b, n, _] =>
    match Kcross.shape with
    | [c, n'] => do
      let C : Tensor ℝ := ⟨[c, n', 1], Kcross.flat⟩
      let F ← Tensor.solve [b] n 1 Kin C
      let P ← Tensor.matmulT [b] n 1 1 F C
      let P ← P.reshape [b]
      koutMinus Kout [] P
    | _ => .error .value
  | [b, n, r, _, _] =>
    match Kcross.shape.getLast? with
    | none => .error .index
    | some q => do
      let K ← Kin.reshape [b, n * r, n * r]
      let C ← Kcross.reshape [b, n * r, q]
      let F ← Tensor.solve [b] (n * r) q K C
      let P ← Tensor.matmulT [b] (n * r) q q F C
      let P ← P.reshape [b, q, q]
      koutMinus Kout [q, q] P
  | _ => .error .value

/-- `_muygps_fast_posterior_mean_precompute` (torch and jax) — `_src/gp/muygps/torch.py:87-91`,
`_src/gp/muygps/jax.py:170-175`: `linalg.solve(Kin, targets)`; targets with one axis less than `Kin` are a
stack of vectors. Nothing is squeezed. -/
noncomputable def precompute (Kin y : Tensor ℝ) : Res (Tensor ℝ) :=
  match y.shape with
  | [b, n] => do
    let s ← Tensor.solve [b] n 1 Kin ⟨[b, n, 1], y.flat⟩
    return ⟨[b, n], s.flat⟩
  | [b, n, r] => Tensor.solve [b] n r Kin y
  | _ => .error .value

/-! ### analytic scale -/

/-- `_analytic_scale_optim` (jax) — `_src/optimize/scale/jax.py:19-55`. `nn_count` on line 47 is
`Kin.shape[1]`. -/
noncomputable def jaxScale (Kin y : Tensor ℝ) : Res ℝ :=
  match Kin.shape with
  | [b, n, _] => do
    if y.ndim ≠ 2 then .error .assertion else
    let s ← scaleUnnormalized Kin y
    return s / ((b * n : Nat) : ℝ)
  | [b, n, r, _, _] => do
    if y.ndim ≠ 3 then .error .assertion else
    let K ← Kin.reshape [b, n * r, n * r]
    let Y ← y.reshape [b, n * r]
    let s ← scaleUnnormalized K Y
    return s / ((b * n : Nat) : ℝ)
  | _ => .error .value

/-! ### losses

`sum` of `_src/math/torch.py:79-81` is `wrap_torch_signature(torch.sum)` (`_src/math/meta.py:28-32`), whose
`axis` defaults to `0`: a call without `axis` adds along the first axis only. -/

/-- `torch.sum(x)` in this library — `_src/math/torch.py:79-81`, `_src/math/meta.py:28-32`. A scalar has
no axis 0 to remove but torch accepts `dim=0` and returns it. -/
noncomputable def torchSum (t : Tensor ℝ) : Tensor ℝ :=
  match t.shape with
  | [] => t
  | b :: rest => ⟨rest, fun k => ∑ i ∈ Finset.range b, t.flat (i * rest.prod + k)⟩

/-- `np.sum(x)`, `jnp.sum(x)`: all entries — `_src/optimize/loss/numpy.py:25`, `_src/optimize/loss/jax.py:52`. -/
noncomputable def fullSum (t : Tensor ℝ) : Tensor ℝ := ⟨[], fun _ => ∑ k ∈ Finset.range t.shape.prod, t.flat k⟩

/-- `_mse_fn` with the given `sum` — `_src/optimize/loss/numpy.py:22-31`, `torch.py:24-35`, `jax.py:48-59`. Shapes
that would have to be broadcast raise. -/
noncomputable def mse (sum : Tensor ℝ → Tensor ℝ) (p t : Tensor ℝ) : Res (Tensor ℝ) := do
  let d ← Tensor.zipWith (fun p t => (p - t) ^ 2) p t
  return (sum d).map fun s => s / (p.shape.prod : ℝ)

/-- `_pseudo_huber_fn` with the given `sum` — `_src/optimize/loss/numpy.py:64-72`, `torch.py:68-77`,
`jax.py:94-103`. -/
noncomputable def pseudoHuber (sum : Tensor ℝ → Tensor ℝ) (p t : Tensor ℝ) (δ : ℝ) : Res (Tensor ℝ) := do
  let d ← Tensor.zipWith (fun p t => Real.sqrt (1 + ((t - p) / δ) ^ 2) - 1) p t
  return (sum d).map fun s => δ ^ 2 * s

/-- The elementwise branch of `_lool_fn_unscaled` with the given `sum` —
`_src/optimize/loss/numpy.py:40-44`, `torch.py:61-65`, `jax.py:87-91`. -/
noncomputable def loolElementwise (sum : Tensor ℝ → Tensor ℝ) (p t v : Tensor ℝ) : Res (Tensor ℝ) := do
  let d ← Tensor.zipWith (fun p t => (p - t) ^ 2) p t
  let e ← Tensor.zipWith (fun s v => s / v + Real.log v) d v
  return sum e

open Classical in
/-- `_lool_fn_unscaled` (NumPy) on variances with two axes — `_src/optimize/loss/numpy.py:45-51`. `solve` takes
the variances as one matrix, which must be square, for all right-hand sides; `quad_form` has shape `(b,)` and
the pair `slogdet` of numbers broadcasts with it only for `b = 2` (and `b = 1`, which is not modelled).
Predictions and targets have the shape of the variances. -/
noncomputable def loolNumpyMatrix (p t v : Tensor ℝ) : Res ℝ :=
  match v.shape with
  | [b, r] =>
    if p.shape = [b, r] ∧ t.shape = [b, r] then
      if b ≠ r then .error .linAlg
      else
        let V : Matrix (Fin r) (Fin r) ℝ := v.matAt r r 0
        if V.det = 0 then .error .linAlg
        else if b ≠ 2 then .error .value
        else
          let res : Nat → Fin r → ℝ := fun i j => p.flat (i * r + j) - t.flat (i * r + j)
          let quad : Nat → ℝ := fun i => dotProduct (res i) (V⁻¹.mulVec (res i))
          .ok ((quad 0 + Real.sign V.det) + (quad 1 + Real.log |V.det|))
    else .error .value
  | _ => .error .value

/-! ### Matérn kernel of general smoothness -/

/-- The Matérn formula at a distance `x`; `kv` is the modified Bessel function of the second kind — `_src/gp/kernels/numpy.py:34-43`, `_src/gp/kernels/jax.py:45-56`. -/
noncomputable def maternFormula (kv : ℝ → ℝ → ℝ) (ν x : ℝ) : ℝ :=
  2 ^ (1 - ν) / Real.Gamma ν * (Real.sqrt (2 * ν) * x) ^ ν * kv ν (Real.sqrt (2 * ν) * x)

open Classical in
/-- One entry of `_matern_gen_fn` (NumPy) — `_src/gp/kernels/numpy.py:34-43`: `eps` is added to distances that
are exactly zero. -/
noncomputable def maternGenNumpy (kv : ℝ → ℝ → ℝ) (eps ν d : ℝ) : ℝ :=
  maternFormula kv ν (if d = 0 then d + eps else d)

open Classical in
/-- `_matern_gen_fn` (jax) — `_src/gp/kernels/jax.py:40-58`: the diagonal of a three-dimensional tensor is set to
1; elsewhere a zero distance gives `0 * inf`, `nan` (`none`). Tensors of other rank than two or three would
multiply the raw distances and are not modelled (`ValueError`). -/
noncomputable def maternGenJax (kv : ℝ → ℝ → ℝ) (ν : ℝ) (d : Tensor ℝ) : Res (Tensor (Option ℝ)) :=
  match d.shape with
  | [_, _] => .ok (d.map fun x => if x = 0 then none else some (maternFormula kv ν x))
  | [b, n, m] =>
    .ok (Tensor.ofFn [b, n, m] fun idx =>
      if idx.getD 1 0 = idx.getD 2 0 then some 1
      else if d.get idx = 0 then none else some (maternFormula kv ν (d.get idx)))
  | _ => .error .value

/-! ### shear kernel -/

/-- `_shear_33_fn` (torch and jax) — `_src/gp/kernels/shear/torch.py:105-162`, `jax.py:114-190`: as in NumPy but
axes of length one stay. -/
noncomputable def shear33 (ℓ : ℝ) (diffs : Tensor ℝ) : Res (Tensor ℝ) :=
  match diffs.shape.reverse with
  | f :: m :: n :: rest =>
    if f < 2 then .error .index
    else
      let k := rest.length
      .ok (Tensor.ofFn (rest.reverse ++ [3, n, 3, m]) fun idx =>
        Shear.block33 ℓ (Shear.stats f ℓ fun c => diffs.get (idx.take k ++ [idx.getD (k + 1) 0, idx.getD (k + 3) 0, c]))
          (idx.getD k 0) (idx.getD (k + 2) 0))
  | _ => .error .assertion

/-- `ShearKernel.__call__` over torch or jax — `gp/kernels/experimental/shear.py:101-130`. -/
noncomputable def shearCall (k : Shear.Kern) (diffs : Tensor ℝ) : Res (Tensor ℝ) := do
  let d ← Shear.adjustDiffs diffs
  shear33 k.lengthScale d.2

/-- `ShearKernel.Kout` over torch or jax — `gp/kernels/experimental/shear.py:132-133`. -/
noncomputable def shearKout (k : Shear.Kern) : Res (Tensor ℝ) := shearCall k ⟨[1, 1, 2], fun _ => 0⟩

end Backend
end MuyGPyS
