import Verif.Model.Batch
import Verif.Model.Kernel
import Verif.Model.Noise

/-!
# Model of the synthetic data samplers: `_test/sampler.py:19-78,245-290`, `_test/gp.py`

Random draws are arguments: the permutation `sfl` made by the seeded generator, the positions picked by `np.random.choice`, the standard
normal numbers of `np.random.normal`. Plotting is not modelled.
-/

namespace MuyGPyS.Sampler
open Py

/-- `np.random.choice(l)`: the entry at the drawn position `d` (any position can come up; reduced modulo the length); an empty `l` is a
`ValueError` — `_test/sampler.py:27`. -/
def chooseOne (l : List Nat) (d : Nat) : Res Nat :=
  match l[d % l.length]? with
  | none => .error .value
  | some x => .ok x

/-- The two masks of a sampler — `_test/sampler.py:20-33`. -/
structure Split where
  train : List Bool
  test : List Bool

/-- The loop of `SamplerBase.__init__` — `_test/sampler.py:26-28` — for the remaining values `is` of `i`: one point of every slice of the
shuffled positions is marked. -/
def pick (sfl : List Nat) (interval : Nat) (draw : Nat → Nat) : List Nat → List Bool → Res (List Bool)
  | [], mask => .ok mask
  | i :: is, mask =>
    match chooseOne ((sfl.take ((i + 1) * interval)).drop (i * interval)) (draw i) with
    | .error e => .error e
    | .ok idx => pick sfl interval draw is (mask.set idx true)

/-- `SamplerBase.__init__` — `_test/sampler.py:20-30`. `sfl` is `rng.permutation(np.arange(data_count))`, `draw i` the position picked by the
`i`-th call of `np.random.choice`. A negative `interval_count` makes the loop empty; the slices are only taken with a non-negative
`interval`. -/
noncomputable def split (n : Nat) (ratio : ℝ) (sfl : List Nat) (draw : Nat → Nat) : Res Split :=
  let intervalCount := truncInt (n * ratio)
  if intervalCount = 0 then .error .zeroDivision
  else
    let interval := (truncInt ((n : ℝ) / intervalCount)).toNat
    match pick sfl interval draw (List.range intervalCount.toNat) (List.replicate n false) with
    | .error e => .error e
    | .ok mask => .ok ⟨mask, mask.map not⟩

/-- `np.linspace(0, 1, n)` — `_test/sampler.py:52,253`. -/
noncomputable def linspace (n : Nat) : Tensor ℝ := ⟨[n], fun i => (i : ℝ) * (1 / ((n : ℝ) - 1))⟩

/-- The grid `xs` — `_test/sampler.py:262-270`: `meshgrid(x, x)` lists the point `[x[j], x[i]]` in row `i * points_per_dim + j`. -/
noncomputable def grid (p : Nat) : Tensor ℝ :=
  ⟨[p * p, 2], fun k => (linspace p).flat (if k % 2 = 0 then k / 2 % p else k / 2 / p)⟩

/-- The positions at which a mask is true, in order — `_test/sampler.py:53-54`. -/
def positions (mask : List Bool) : List Nat := (List.range mask.length).filter fun i => mask.getD i false

/-- `t[mask]` of a vector, `t[mask, :]` of a matrix: the rows where the mask is true; a mask of another length than the first axis is an
`IndexError`, and so is a mask on a zero-dimensional array — `_test/sampler.py:53-54,74-75,274-275`. -/
def select (t : Tensor ℝ) (mask : List Bool) : Res (Tensor ℝ) :=
  match t.shape with
  | [] => .error .index
  | n :: rest =>
    if mask.length = n then
      .ok ⟨(positions mask).length :: rest,
        fun k => t.flat ((positions mask).getD (k / rest.prod) 0 * rest.prod + k % rest.prod)⟩
    else .error .index

/-! ## `_test/gp.py` -/

/-- `BenchmarkGP` — `_test/gp.py:12-36`: kernel, noise and the value of its `FixedScale`. -/
structure BenchmarkGP where
  kernel : KernelObj
  noise : Noise
  scale : ℝ

/-- `BenchmarkGP.__init__` — `_test/gp.py:25-36`: `FixedScale()` has the value 1. -/
noncomputable def BenchmarkGP.new (kernel : KernelObj) (noise : Noise) : BenchmarkGP := ⟨kernel, noise, 1⟩

/-- `noise()` used as a number — `gp/hyperparameter/scalar.py` (`ScalarParam.__call__`), `gp/noise/null.py:29-30`. A
`HeteroscedasticNoise` returns an array (not modelled, reported as `ValueError`). -/
def Noise.number : Noise → Res ℝ
  | .homoscedastic v => .ok v
  | .shear33 v => .ok v
  | .null => .ok 0
  | .heteroscedastic _ => .error .value

/-- `_pairwise_tensor` for a vector of indices — `_src/gp/tensors/numpy.py:61-69`: the ellipsis is empty. -/
def pairwiseVector (data : Tensor ℝ) (nn : Tensor Int) : Res (Tensor ℝ) :=
  match data.take nn with
  | .error e => .error e
  | .ok pts =>
    match data.shape, pts.shape with
    | [_], [n] => Tensor.bop (· - ·) ⟨[n, 1, 1], pts.flat⟩ ⟨[1, n, 1], pts.flat⟩
    | [_, _], [n, f] => Tensor.bop (· - ·) ⟨[n, 1, f], pts.flat⟩ ⟨[1, n, f], pts.flat⟩
    | _, _ => .error .value

/-- `deformation.pairwise_tensor(data, indices)` for a vector of indices (see `defPairwise`) — `_test/gp.py:83-107`. -/
noncomputable def pairwiseDeform (df : Deform) (data : Tensor ℝ) (nn : Tensor Int) : Res (Tensor ℝ) :=
  match pairwiseVector data nn with
  | .error e => .error e
  | .ok d =>
    match df.kind with
    | .isotropy => df.metric.apply d
    | _ => .ok d

/-- `L` is the Cholesky factor of `A`: lower triangular with a positive diagonal, `L Lᵀ = A` — `_test/gp.py:107`. -/
def IsCholesky {n : Nat} (A L : Matrix (Fin n) (Fin n) ℝ) : Prop :=
  (∀ i j, i < j → L i j = 0) ∧ (∀ i, 0 < L i i) ∧ L * L.transpose = A

open Classical in
/-- `np.linalg.cholesky` of a matrix, assumed semantics: the Cholesky factor of the symmetric matrix given by the lower triangle,
`LinAlgError` when there is none — `_test/gp.py:107`. -/
noncomputable def cholesky (K : Tensor ℝ) : Res (Tensor ℝ) :=
  match K.shape with
  | [n, m] =>
    if n = m then
      let A : Matrix (Fin n) (Fin n) ℝ := Matrix.of fun i j => K.get [max (i : Nat) j, min (i : Nat) j]
      if h : ∃ L, IsCholesky A L then
        .ok ⟨[n, n], fun k => if hk : k / n < n ∧ k % n < n then h.choose ⟨k / n, hk.1⟩ ⟨k % n, hk.2⟩ else 0⟩
      else .error .linAlg
    else .error .linAlg
  | _ => .error .linAlg

/-- `benchmark_prepare_cholK` — `_test/gp.py:83-108`. -/
noncomputable def prepareCholK (bessel : Flt → ℝ → ℝ) (gp : BenchmarkGP) (data : Tensor ℝ) : Res (Tensor ℝ) := do
  let n ← match data.shape with
    | [] => .error .index
    | n :: _ => .ok n
  let d ← pairwiseDeform gp.kernel.deform data (arange n)
  let K ← gp.kernel.call bessel d []
  let τ ← Noise.number gp.noise
  if K.shape = [n, n] then
    cholesky ⟨[n, n], fun k => gp.scale * (K.flat k + τ * eye (k / n) (k % n))⟩
  else .error .value

/-- `benchmark_sample_from_cholK` — `_test/gp.py:129-133`; `z` are the standard normal numbers drawn. -/
noncomputable def sampleFromCholK (L : Tensor ℝ) (z : Nat → ℝ) : Res (Tensor ℝ) :=
  match L.shape with
  | [n, m] => if m = n then .ok ⟨[n, 1], fun i => ∑ j ∈ Finset.range n, L.get [i, j] * z j⟩ else .error .value
  | _ => .error .value

/-- `benchmark_sample` — `_test/gp.py:111-126`. -/
noncomputable def benchmarkSample (bessel : Flt → ℝ → ℝ) (gp : BenchmarkGP) (data : Tensor ℝ) (z : Nat → ℝ) : Res (Tensor ℝ) := do
  let L ← prepareCholK bessel gp data
  let s ← sampleFromCholK L z
  return s.squeeze

/-- `benchmark_sample_full` — `_test/gp.py:56-80`: the test data stacked on the training data. Simplification: matrices with different
column counts raise, and so do arguments of different or higher rank. -/
noncomputable def benchmarkSampleFull (bessel : Flt → ℝ → ℝ) (gp : BenchmarkGP) (test train : Tensor ℝ) (z : Nat → ℝ) : Res (Tensor ℝ) :=
  match test.shape, train.shape with
  | [a], [b] => benchmarkSample bessel gp ⟨[a + b], fun k => if k < a then test.flat k else train.flat (k - a)⟩ z
  | [a, f], [b, f'] =>
    if f = f' then
      benchmarkSample bessel gp ⟨[a + b, f], fun k => if k < a * f then test.flat k else train.flat (k - a * f)⟩ z
    else .error .value
  | _, _ => .error .value

/-! ## The samplers -/

/-- A sampler after `__init__`: all points, the masks, the two feature tables, the generating GP and the value of `measurement_noise` — `_test/sampler.py:35-78,238-278`. -/
structure Obj where
  x : Tensor ℝ
  masks : Split
  trainFeatures : Tensor ℝ
  testFeatures : Tensor ℝ
  gp : BenchmarkGP
  measurementNoise : ℝ

/-- The part of the two constructors they share — `_test/sampler.py:50-59,259-277`: split, then select the features. -/
noncomputable def create (x : Tensor ℝ) (n : Nat) (ratio : ℝ) (kernel : KernelObj) (noise : Noise) (measurement : ℝ) (sfl : List Nat)
    (draw : Nat → Nat) : Res Obj := do
  let masks ← split n ratio sfl draw
  let test ← select x masks.test
  let train ← select x masks.train
  return ⟨x, masks, train, test, BenchmarkGP.new kernel noise, measurement⟩

/-- `UnivariateSampler(data_count, train_ratio, …)` — `_test/sampler.py:35-59`. -/
noncomputable def univariate (n : Nat) (ratio : ℝ) (kernel : KernelObj) (noise : Noise) (measurement : ℝ) (sfl : List Nat) (draw : Nat → Nat) :
    Res Obj :=
  create (linspace n) n ratio kernel noise measurement sfl draw

/-- `UnivariateSampler2D(points_per_dim, train_ratio, …)` — `_test/sampler.py:245-277`. -/
noncomputable def univariate2D (points : Nat) (ratio : ℝ) (kernel : KernelObj) (noise : Noise) (measurement : ℝ) (sfl : List Nat)
    (draw : Nat → Nat) : Res Obj :=
  create (grid points) (points * points) ratio kernel noise measurement sfl draw

/-- `sample` — `_test/sampler.py:72-78,282-288`: `(train_responses, test_responses)`. `z` are the standard normal numbers behind
`benchmark_sample`, `e` those behind `np.random.normal(0, measurement_noise(), …)`, which multiplies them by its second argument, the
*standard deviation*, and refuses a negative one. -/
noncomputable def Obj.sample (bessel : Flt → ℝ → ℝ) (S : Obj) (z e : Nat → ℝ) : Res (Tensor ℝ × Tensor ℝ) := do
  let y ← benchmarkSample bessel S.gp S.x z
  let test ← select y S.masks.test
  let train ← select y S.masks.train
  if S.measurementNoise < 0 then .error .value
  else return (⟨train.shape, fun i => train.flat i + S.measurementNoise * e i⟩, test)

end MuyGPyS.Sampler
