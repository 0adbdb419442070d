import Verif.Model.Kernel
import Verif.Model.Neighbors

/-!
# Model of knot-based (hierarchical) hyperparameters

`gp/hyperparameter/experimental/hierarchical.py`, and their use as the length scale of an isotropic
deformation, `gp/deformation/isotropy.py:40-89`.
-/

namespace MuyGPyS
open Py

/-- `_pairwise_tensor` with a one-dimensional index array — `_src/gp/tensors/numpy.py:61-69`. -/
def pairwiseVec (data : Tensor ℝ) (idx : Tensor Int) : Res (Tensor ℝ) :=
  match data.take idx with
  | .error e => .error e
  | .ok pts =>
    match data.shape, pts.shape with
    | [_], [n] =>
      -- points[..., :, None, None] - points[..., None, :, None]
      Tensor.bop (· - ·) ⟨[n, 1, 1], pts.flat⟩ ⟨[1, n, 1], pts.flat⟩
    | [_, _], [n, f] =>
      -- points[..., None, :] - points[..., None, :, :]
      Tensor.bop (· - ·) ⟨[n, 1, f], pts.flat⟩ ⟨[1, n, f], pts.flat⟩
    | _, _ => .error .value

/-- `_crosswise_tensor` with one-dimensional index arrays — `_src/gp/tensors/numpy.py:47-58`. The
second operand has one axis less, so broadcasting puts an axis of length 1 in front of it. Tables of
different rank are not modelled (`ValueError`). -/
def crosswiseVec (data nnData : Tensor ℝ) (idx nn : Tensor Int) : Res (Tensor ℝ) :=
  match data.take idx with
  | .error e => .error e
  | .ok locs =>
    match nnData.take nn with
    | .error e => .error e
    | .ok pts =>
      match data.shape, locs.shape, pts.shape with
      | [_], [b], [n] =>
        -- locations[..., :, None, None] - points[..., None]
        Tensor.bop (· - ·) ⟨[b, 1, 1], locs.flat⟩ ⟨[1, n, 1], pts.flat⟩
      | [_, _], [b, f], [n, f'] =>
        -- locations[..., :, None, :] - points
        Tensor.bop (· - ·) ⟨[b, 1, f], locs.flat⟩ ⟨[1, n, f'], pts.flat⟩
      | _, _, _ => .error .value

/-- The deformation's tensors are distances for `Isotropy` and differences otherwise (as in
`defPairwise`) — `gp/deformation/isotropy.py:92-160`. -/
noncomputable def Deform.measure (df : Deform) (d : Tensor ℝ) : Res (Tensor ℝ) :=
  match df.kind with
  | .isotropy => df.metric.apply d
  | _ => .ok d

/-- A `NamedHierarchicalParameter` — `gp/hyperparameter/experimental/hierarchical.py:93-101`: the knot
features, the knot parameters (named `length_scale0`, `length_scale1`, …), the higher-level kernel, its
covariance among the knots — computed once, by the constructor — and the noise value. -/
structure Hier where
  knots : Tensor ℝ
  params : List Param
  kernel : KernelObj
  kin : Tensor ℝ
  noise : Flt

/-- `HierarchicalParameter.__init__` — `gp/hyperparameter/experimental/hierarchical.py:35-58`. `len` of
a 0-dimensional array is a `TypeError`. -/
noncomputable def Hier.create (bessel : Flt → ℝ → ℝ) (knots : Tensor ℝ) (params : List Param)
    (kernel : KernelObj) (noise : Flt) : Res Hier :=
  match knots.shape with
  | [] => .error .type
  | n :: _ =>
    if params.length ≠ n then .error .value else do
      let d ← pairwiseVec knots (arange n)
      let d ← kernel.deform.measure d
      let k ← kernel.call bessel d []
      return ⟨knots, params, kernel, k, noise⟩

/-- The default noise, `HomoscedasticNoise(1e-5)` — `gp/hyperparameter/experimental/hierarchical.py:40`. -/
noncomputable def Hier.defaultNoise : Flt := Flt.fin (1 / 100000)

/-- `self._Kin_higher + self._noise() * mm.eye(self._knot_count)` — line 113; a covariance of any other
shape than `(knot_count, knot_count)` is not modelled — `gp/hyperparameter/experimental/hierarchical.py:113`. -/
noncomputable def Hier.perturbed (h : Hier) : Res (Tensor ℝ) :=
  Tensor.zipWith (· + ·) h.kin
    (Tensor.ofFn [h.params.length, h.params.length] fun idx =>
      match idx with
      | [i, j] => if i = j then h.noise.toReal else 0
      | _ => 0)

/-- `Kcross @ v` for a matrix and a vector — `gp/hyperparameter/experimental/hierarchical.py:110-124`. -/
noncomputable def matVec (a v : Tensor ℝ) : Res (Tensor ℝ) :=
  match a.shape, v.shape with
  | [b, n], [n'] =>
    if n = n' then .ok ⟨[b], fun p => ∑ j : Fin n, a.flat (p * n + j) * v.flat j⟩ else .error .value
  | _, _ => .error .value

/-- `NamedHierarchicalParameter.__call__` — `gp/hyperparameter/experimental/hierarchical.py:110-124`:
`_params.filter_kwargs`, then `_params(**params)`, which filters again
(`gp/hyperparameter/vector.py:92-110`). -/
noncomputable def Hier.call (bessel : Flt → ℝ → ℝ) (h : Hier) (batch : Tensor ℝ) (kw : Dict Flt) :
    Res (Tensor ℝ) := do
  let params := (filterVector h.params kw).1
  let vals := (Dict.values (filterVector h.params params).1).map Flt.toReal
  let A ← h.perturbed
  let sol ← Tensor.solve [] h.params.length 1 A ⟨[vals.length, 1], fun k => vals.getD k 0⟩
  match batch.shape, h.knots.shape with
  | b :: _, n :: _ =>
    let d ← crosswiseVec batch h.knots (arange b) (arange n)
    let d ← h.kernel.deform.measure d
    let c ← h.kernel.call bessel d []
    let r ← matVec c ⟨[h.params.length], sol.flat⟩
    return r.squeeze
  | _, _ => .error .index

/-- `Isotropy.__call__` with an array length scale — `gp/deformation/isotropy.py:83-89`: a
0-dimensional array acts as a number, a vector is laid along the first axis of the distances. -/
noncomputable def isoApply (m : Metric) (dists len : Tensor ℝ) : Res (Tensor ℝ) :=
  match len.shape with
  | [] => .ok (dists.map fun x => m.scaleBy x (len.flat 0))
  | [b] =>
    if dists.shape = [] then .error .index
    else Tensor.bop m.scaleBy dists ⟨b :: List.replicate (dists.shape.length - 1) 1, len.flat⟩
  | _ => .error .index

/-- A kernel functor with an `Isotropy` deformation whose length scale is hierarchical —
`gp/deformation/isotropy.py:45-51`, `gp/kernels/rbf.py:89-93`, `gp/kernels/matern.py:139-146`. -/
structure HierKernel where
  metric : Metric
  length : Hier
  smoothness : Option Param
  fn : KFn

/-- The constructors (`smoothness = none` for `RBF`), which bind the implementation —
`gp/kernels/rbf.py:89-93`, `gp/kernels/matern.py:139-146`. -/
noncomputable def HierKernel.create (m : Metric) (h : Hier) (smoothness : Option Param) : HierKernel :=
  ⟨m, h, smoothness, match smoothness with
    | none => .rbf
    | some p => setMaternFn p⟩

/-- `kernel(dists, batch_features=batch, **kwargs)` —
`gp/hyperparameter/experimental/hierarchical.py:126-148`: `batch = none` means the keyword was not
given (`KeyError`). `kw` are the float keywords. -/
noncomputable def HierKernel.call (bessel : Flt → ℝ → ℝ) (k : HierKernel) (dists : Tensor ℝ)
    (batch : Option (Tensor ℝ)) (kw : Dict Flt) : Res (Tensor ℝ) :=
  if Dict.has kw "diffs" || Dict.has kw "dists" || Dict.has kw "self" then .error .type else
  let pk := filterVector k.length.params kw
  match batch with
  | none => .error .key
  | some batch => do
    let len ← k.length.call bessel batch pk.1
    let t ← isoApply k.metric dists len
    match k.smoothness with
    | none => k.fn.run bessel t pk.2
    | some p => k.fn.run bessel t (Dict.setdefault pk.2 "smoothness" p.val)

/-- `NamedHierarchicalParameter.append_lists`, `.populate` — lines 150-158: the knots are the
hyperparameters — `gp/hyperparameter/experimental/hierarchical.py:149-158`. -/
def Hier.named (h : Hier) : List (String × Param) := namedFrom "length_scale" 0 h.params

end MuyGPyS
