import Verif.Model.Workflow
import Verif.Model.MaternGen

/-!
# Model of the numerical functions as programs on a memory of array buffers

The other models treat arrays as values. NumPy arrays are references: `reshape`, `squeeze` and indexing with `None` return views of the same
buffer, `K[...] += x`, `K *= x` and `K.fill(x)` write into a buffer, and every other operation allocates. Here the functions of
`_src/gp/kernels/numpy.py`, `_src/gp/noise/numpy.py`, `_src/gp/muygps/numpy.py` and their callers are modelled with these effects.
Temporaries that are never written to are not listed separately: an expression allocates its result.
-/

namespace MuyGPyS.Mem
open Py MuyGPyS

/-- A NumPy array: the buffer it refers to and its shape (contiguous arrays only) — `_src/gp/noise/numpy.py:9-68` (the arrays these functions take and return). -/
structure Arr where
  buf : Nat
  shape : List Nat

/-- The buffers in order of allocation (none is ever freed) — `_src/gp/noise/numpy.py:9-68`. -/
abbrev Mem := List (Nat → ℝ)

/-- The value of an array: its shape and the contents of its buffer — `_src/gp/noise/numpy.py:9-68`. -/
def Arr.val (m : Mem) (a : Arr) : Tensor ℝ := ⟨a.shape, m.getD a.buf fun _ => 0⟩

/-- A computation with effects on the memory, which persist when it raises — `_src/gp/noise/numpy.py:9-68`. -/
def Prog (α : Type) := Mem → Res α × Mem

/-- Running one computation after another; an exception ends the computation — `gp/muygps.py:164-341`. -/
def Prog.bind {α β : Type} (p : Prog α) (f : α → Prog β) : Prog β := fun m =>
  match p m with
  | (.ok a, m') => f a m'
  | (.error e, m') => (.error e, m')

instance : Monad Prog where
  pure a := fun m => (.ok a, m)
  bind := Prog.bind

/-- A raised exception — `gp/muygps.py:164-341`. -/
def raise {α : Type} (e : Err) : Prog α := fun m => (.error e, m)

/-- An expression whose value is a new array (or an exception) — `_src/gp/kernels/numpy.py:12-32`. -/
def alloc (r : Res (Tensor ℝ)) : Prog Arr := fun m =>
  match r with
  | .ok t => (.ok ⟨m.length, t.shape⟩, m ++ [t.flat])
  | .error e => (.error e, m)

/-- The value of an array — `_src/gp/kernels/numpy.py:12-32`. -/
def load (a : Arr) : Prog (Tensor ℝ) := fun m => (.ok (a.val m), m)

/-- A view of the same buffer, with the shape of `r` applied to the value (or an exception). Only for `r` that leave the entries as they
are: `reshape`, `squeeze`, `atleast_3d`, `[:, :, None]` — `_src/gp/muygps/numpy.py:25-41`. -/
def view (a : Arr) (r : Tensor ℝ → Res (Tensor ℝ)) : Prog Arr := fun m =>
  match r (a.val m) with
  | .ok t => (.ok ⟨a.buf, t.shape⟩, m)
  | .error e => (.error e, m)

/-- Writing into the buffer of an array: entry `k` becomes `f k (old value)` — `_src/gp/noise/numpy.py:66`, `_src/gp/kernels/numpy.py:38-43`. -/
def store (a : Arr) (f : Nat → ℝ → ℝ) : Prog Unit := fun m =>
  (.ok (), m.set a.buf fun k => f k ((m.getD a.buf fun _ => 0) k))

/-! ## Kernels -/

open Classical in
/-- `_matern_gen_fn` — `_src/gp/kernels/numpy.py:34-43`, statement by statement: `K = dists` is the argument itself. -/
noncomputable def maternGenFn (dists : Arr) (s : Flt) : Prog Arr := do
  -- K[K == 0.0] += np.finfo(float).eps
  store dists fun _ x => if x = 0 then x + machEps else x
  -- tmp = np.sqrt(2 * smoothness) * K
  let K ← load dists
  let tmp ← alloc (.ok (K.map fun x => Real.sqrt (2 * s.toReal) * x))
  -- K.fill((2 ** (1.0 - smoothness)) / gamma(smoothness))
  store dists fun _ _ => 2 ^ (1 - s.toReal) / Real.Gamma s.toReal
  -- K *= tmp**smoothness
  let t ← load tmp
  store dists fun k x => x * t.flat k ^ s.toReal
  -- K *= kv(smoothness, tmp)
  store dists fun k x => x * besselK s.toReal (t.flat k)
  return dists

/-- Calling an implementation with keyword arguments, see `KFn.run`; all but the general Matérn function return new arrays — `_src/gp/kernels/numpy.py:12-43`. -/
noncomputable def kfnRun (fn : KFn) (t : Arr) (kw : Dict Flt) : Prog Arr :=
  match fn with
  | .gen =>
    match Dict.get? kw "smoothness" with
    | none => raise .type
    | some s => maternGenFn t s
  | fn => do
    let v ← load t
    alloc (fn.run maternGen v kw)

/-- `_fn` / `get_opt_fn`, see `KernelObj.optFn`: the deformation (`dists / length_scale`, `metric(dists / length_scale)`) is a new array — `gp/kernels/matern.py:192-200`, `gp/kernels/rbf.py:116-120`. -/
noncomputable def optFn (k : KernelObj) (dists : Arr) (kw : Dict Flt) : Prog Arr :=
  if Dict.has kw "dists" || Dict.has kw "self" then raise .type else do
  let v ← load dists
  let t ← alloc (k.deform.call v (k.deform.filter kw).1)
  match k.smoothness with
  | none => kfnRun k.fn t (k.deform.filter kw).2
  | some p => kfnRun k.fn t (Dict.setdefault (k.deform.filter kw).2 "smoothness" p.val)

/-- `kernel(diffs, **kwargs)`, see `KernelObj.call` — `gp/kernels/matern.py:148-168`, `gp/kernels/rbf.py:95-111`. -/
noncomputable def call (k : KernelObj) (diffs : Arr) (kw : Dict Flt) : Prog Arr :=
  if Dict.has kw "diffs" then raise .type else optFn k diffs kw

/-! ## Noise -/

/-- `_heteroscedastic_perturb` — `_src/gp/noise/numpy.py:56-67`: a copy, then `ret[indices] += noise_variances.flatten()` in place. The
checks of `heteroscedasticPerturb` come after the copy. -/
noncomputable def heteroscedasticPerturb (Kin : Arr) (noise : Tensor ℝ) : Prog Arr := do
  -- ret = Kin.copy()
  let v ← load Kin
  let ret ← alloc (.ok v)
  match Kin.shape with
  | [b, n, m] =>
    if m < n then raise .index
    else if noise.shape.prod = b * n then do
      store ret fun k x => x + (if k % (n * m) / m = k % m then noise.flat (k / (n * m) * n + k % m) else 0)
      return ret
    else if noise.shape.prod = 1 then do
      store ret fun k x => x + (if k % (n * m) / m = k % m then noise.flat 0 else 0)
      return ret
    else raise .value
  | _ => raise .value

/-- `noise.perturb(Kin, noise=kw)`, see `Noise.perturb`; `NullNoise` returns the very array it was given (`gp/noise/null.py:32-47`). -/
noncomputable def perturb (ν : Noise) (Kin : Arr) (kw : Option ℝ) : Prog Arr :=
  match ν with
  | .heteroscedastic v => heteroscedasticPerturb Kin v
  | .null => pure Kin
  | ν => do
    let v ← load Kin
    alloc (ν.perturb v kw)

/-! ## Posterior mean and variance -/

/-- `_muygps_posterior_mean` — `_src/gp/muygps/numpy.py:17-41`, see `posteriorMean`: `reshape` makes views. -/
noncomputable def posteriorMean (Kin Kcross y : Arr) : Prog Arr :=
  match findMatchingNdim y.shape Kin.shape with
  | .error e => raise e
  | .ok bi => do
    let inShape := Kin.shape.drop bi
    let outShape := Kcross.shape.drop bi
    let batchShape := dropTail2 Kin.shape inShape.length
    let extraShape := y.shape.drop (batchShape.length + inShape.length)
    let yFlat ← view y fun t => t.reshape (batchShape ++ [inShape.prod, extraShape.prod])
    let KinFlat ← view Kin fun t => t.reshape (batchShape ++ [inShape.prod, inShape.prod])
    let KcrossFlat ← view Kcross fun t => t.reshape (batchShape ++ [inShape.prod, outShape.prod])
    let A ← load KinFlat
    let B ← load KcrossFlat
    let F ← alloc (Tensor.solve batchShape inShape.prod outShape.prod A B)
    let F' ← load F
    let y' ← load yFlat
    let ret ← alloc (Tensor.matmulT batchShape inShape.prod outShape.prod extraShape.prod F' y')
    view ret fun t => t.reshape (batchShape ++ outShape ++ extraShape)

/-- `_muygps_diagonal_variance` — `_src/gp/muygps/numpy.py:44-67`, see `diagonalVariance`. -/
noncomputable def diagonalVariance (Kin Kcross : Arr) (Kout : Tensor ℝ) : Prog Arr := do
  let inDimCount := (Kin.shape.length - 1) / 2
  let batchShape := Kin.shape.take 1
  let inShape := Kin.shape.drop (1 + inDimCount)
  let outShape := Kcross.shape.drop (1 + inDimCount)
  let KinFlat ← view Kin fun t => t.reshape (batchShape ++ [inShape.prod, inShape.prod])
  let KcrossFlat ← view Kcross fun t => t.reshape (batchShape ++ [inShape.prod, outShape.prod])
  let A ← load KinFlat
  let B ← load KcrossFlat
  let F ← alloc (Tensor.solve batchShape inShape.prod outShape.prod A B)
  let F' ← load F
  let Kpost ← alloc (Tensor.matmulT batchShape inShape.prod outShape.prod outShape.prod F' B)
  let Kpost' ← view Kpost fun t => t.reshape (batchShape ++ outShape ++ outShape)
  let P ← load Kpost'
  alloc (koutMinus Kout (outShape ++ outShape) P)

/-- `_muygps_fast_posterior_mean_precompute` — `_src/gp/muygps/numpy.py:88-95`, see `fastPrecompute`. -/
noncomputable def fastPrecompute (Kin y : Arr) : Prog Arr := do
  let y' ← view y fun t => .ok (match t.shape with
    | [b, n] => ⟨[b, n, 1], t.flat⟩
    | _ => t)
  match y'.shape with
  | [b, n, r] => do
    let A ← load Kin
    let B ← load y'
    let s ← alloc (Tensor.solve [b] n r A B)
    view s fun t => .ok t.squeeze
  | _ => raise .value

/-- `_muygps_fast_posterior_mean` — `_src/gp/muygps/numpy.py:70-77`, see `fastPosteriorMean`. -/
noncomputable def fastPosteriorMean (Kcross coeffs : Arr) : Prog Arr := do
  let A ← load Kcross
  let c ← view coeffs fun t => .ok t.atleast3d
  let B ← load c
  let r ← alloc (einsumFast A B)
  view r fun t => .ok t.squeeze

/-! ## The calls of a user -/

/-- `muygps.posterior_mean(Kin, Kcross, nn_targets)`, see `MuyGPS.posteriorMean`, or the function of `get_opt_mean_fn` with a noise keyword — `gp/muygps.py:164-211`. -/
noncomputable def mean (gp : MuyGPS) (Kin Kcross y : Arr) (kw : Option ℝ) : Prog Arr := do
  let K ← perturb gp.noise Kin kw
  posteriorMean K Kcross y

/-- `muygps.posterior_variance(Kin, Kcross)`, see `MuyGPS.posteriorVariance` — `gp/muygps.py:213-259`. -/
noncomputable def variance (gp : MuyGPS) (Kin Kcross : Arr) : Prog Arr := do
  let K ← perturb gp.noise Kin none
  let v ← diagonalVariance K Kcross gp.kout
  let x ← load v
  alloc (.ok (x.map fun x => gp.boundScale * x))

/-- `muygps.fast_coefficients(Kin, nn_targets)`, see `MuyGPS.fastCoefficients` — `gp/muygps.py:261-298`. -/
noncomputable def coefficients (gp : MuyGPS) (Kin y : Arr) : Prog Arr := do
  let K ← perturb gp.noise Kin none
  fastPrecompute K y

/-- `deformation.crosswise_tensor` and `pairwise_tensor`: fancy indexing and subtraction allocate — `gp/deformation/isotropy.py:121-163`, `_src/gp/tensors/numpy.py:47-59`. -/
noncomputable def crosswise (df : Deform) (data nnData : Arr) (idx nn : Tensor Int) : Prog Arr := do
  let a ← load data
  let b ← load nnData
  alloc (df.crosswise a b idx nn)

/-- See `crosswise` — `gp/deformation/isotropy.py:92-119`, `_src/gp/tensors/numpy.py:61-70`. -/
noncomputable def pairwise (df : Deform) (data : Arr) (nn : Tensor Int) : Prog Arr := do
  let a ← load data
  alloc (df.pairwise a nn)

/-- `targets[indices]` — `gp/muygps.py:406-551` (`train_targets[batch_nn_indices]`). -/
noncomputable def take (targets : Arr) (idx : Tensor Int) : Prog Arr := do
  let a ← load targets
  alloc (a.take idx)

/-- `regress_from_indices` — `examples/from_indices.py:22-39,76-90`, see `regressFromIndices`. -/
noncomputable def regressFromIndices (R : Regressor) (idx nn : Tensor Int) (test train targets : Arr) : Prog (Arr × Arr) := do
  let C ← crosswise R.kernel.deform test train idx nn
  let P ← pairwise R.kernel.deform train nn
  let y ← take targets nn
  let Kin ← call R.kernel P []
  let Kcross ← call R.kernel C []
  let μ ← mean R.gp Kin Kcross y none
  let v ← variance R.gp Kin Kcross
  return (μ, v)

/-! ## A session -/

/-- One call of the library on arrays the user holds, given by their positions in the list of held arrays — `gp/muygps.py:164-551`, `examples/from_indices.py:40-125`. -/
inductive Call
  | kernel (k : KernelObj) (diffs : Nat) (kw : Dict Flt)
  | crosswise (df : Deform) (data nnData : Nat) (idx nn : Tensor Int)
  | pairwise (df : Deform) (data : Nat) (nn : Tensor Int)
  | take (targets : Nat) (idx : Tensor Int)
  | perturb (ν : Noise) (Kin : Nat) (kw : Option ℝ)
  | mean (gp : MuyGPS) (Kin Kcross y : Nat) (kw : Option ℝ)
  | variance (gp : MuyGPS) (Kin Kcross : Nat)
  | coefficients (gp : MuyGPS) (Kin y : Nat)
  | fastMean (Kcross coeffs : Nat)
  | regress (R : Regressor) (idx nn : Tensor Int) (test train targets : Nat)

/-- A held array; a name that is not bound raises — `gp/muygps.py:164-551`. -/
def arg (held : List Arr) (i : Nat) : Prog Arr :=
  match held[i]? with
  | some a => pure a
  | none => raise .key

/-- Running a call; returns the new arrays — `gp/muygps.py:164-551`, `examples/from_indices.py:40-125`. -/
noncomputable def Call.prog (held : List Arr) : Call → Prog (List Arr)
  | .kernel k d kw => do
    let d ← arg held d
    let r ← Mem.call k d kw
    return [r]
  | .crosswise df a b idx nn => do
    let a ← arg held a
    let b ← arg held b
    let r ← Mem.crosswise df a b idx nn
    return [r]
  | .pairwise df a nn => do
    let a ← arg held a
    let r ← Mem.pairwise df a nn
    return [r]
  | .take a idx => do
    let a ← arg held a
    let r ← Mem.take a idx
    return [r]
  | .perturb ν K kw => do
    let K ← arg held K
    let r ← Mem.perturb ν K kw
    return [r]
  | .mean gp K C y kw => do
    let K ← arg held K
    let C ← arg held C
    let y ← arg held y
    let r ← Mem.mean gp K C y kw
    return [r]
  | .variance gp K C => do
    let K ← arg held K
    let C ← arg held C
    let r ← Mem.variance gp K C
    return [r]
  | .coefficients gp K y => do
    let K ← arg held K
    let y ← arg held y
    let r ← Mem.coefficients gp K y
    return [r]
  | .fastMean C c => do
    let C ← arg held C
    let c ← arg held c
    let r ← Mem.fastPosteriorMean C c
    return [r]
  | .regress R idx nn a b y => do
    let a ← arg held a
    let b ← arg held b
    let y ← arg held y
    let r ← Mem.regressFromIndices R idx nn a b y
    return [r.1, r.2]

/-- What the user does next: create an array, write into an array in place, or call the library — `gp/muygps.py:164-551`. -/
inductive Step
  | input (t : Tensor ℝ)
  | write (i : Nat) (f : Nat → ℝ → ℝ)
  | call (c : Call)

/-- The user's program: the held arrays, the memory and the outcome of every step so far — `gp/muygps.py:164-551`. -/
structure Session where
  held : List Arr
  mem : Mem
  log : List (Option Err)

/-- One step of the user's program; after an exception no array is added — `gp/muygps.py:164-551`. -/
noncomputable def Session.step (σ : Session) : Step → Session
  | .input t => ⟨σ.held ++ [⟨σ.mem.length, t.shape⟩], σ.mem ++ [t.flat], σ.log ++ [none]⟩
  | .write i f =>
    match (arg σ.held i >>= fun a => store a f) σ.mem with
    | (.ok _, m) => ⟨σ.held, m, σ.log ++ [none]⟩
    | (.error e, m) => ⟨σ.held, m, σ.log ++ [some e]⟩
  | .call c =>
    match c.prog σ.held σ.mem with
    | (.ok rs, m) => ⟨σ.held ++ rs, m, σ.log ++ [none]⟩
    | (.error e, m) => ⟨σ.held, m, σ.log ++ [some e]⟩

end MuyGPyS.Mem
