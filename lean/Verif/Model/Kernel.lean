import Verif.Model.Hyper
import Verif.Model.Tensors

/-!
# Model of kernel functors as callables

`gp/kernels/{kernel_fn,rbf,matern}.py`, `gp/deformation/{isotropy,anisotropy}.py`,
`gp/hyperparameter/{scalar,vector}.py`, `_src/gp/kernels/numpy.py`.

Tensor entries are reals. Length scales are stored and passed as floats (`Flt`) and read as reals
for the arithmetic: division by a zero, infinite or NaN length scale is not modelled (Lean's `x / 0`
is `0`), so only theorems that assume finite positive length scales say something about computed
numbers; theorems about which value is used do not depend on this.
-/

namespace MuyGPyS
open Py

/-- The real value of a finite float — `gp/hyperparameter/scalar.py:269-276`. -/
noncomputable def Flt.toReal (v : Flt) : ℝ := (v.getD 0).toReal

/-- A deformation with its metric and length scale parameter(s) — `gp/deformation/isotropy.py:40-60,165-207`
and `gp/deformation/anisotropy.py:35-41`. -/
inductive Deform
  | isotropy (m : Metric) (p : Param)
  | difference (m : Metric) (p : Param)
  | anisotropy (m : Metric) (ps : List Param)

/-- The kernel implementations — `_src/gp/kernels/numpy.py` — `_src/gp/kernels/numpy.py:12-43`. -/
inductive KFn
  | rbf | m05 | m15 | m25 | minf | gen
  deriving DecidableEq

/-- `_rbf_fn`, `_matern_05_fn`, `_matern_15_fn`, `_matern_25_fn`, `_matern_inf_fn` on one entry —
`_src/gp/kernels/numpy.py:12-31`. `bessel s` stands for `_matern_gen_fn(·, smoothness=s)`
(lines 34-43), which is an arbitrary function here: `scipy.special.kv` is not modelled. -/
noncomputable def KFn.value (bessel : Flt → ℝ → ℝ) (s : Flt) : KFn → ℝ → ℝ
  | .rbf, d => Real.exp (-d / 2)
  | .m05, d => Real.exp (-d)
  | .m15, d =>
    let K := d * Real.sqrt 3
    (1 + K) * Real.exp (-K)
  | .m25, d =>
    let K := d * Real.sqrt 5
    (1 + K + K ^ 2 / 3) * Real.exp (-K)
  | .minf, d => Real.exp (-(d ^ 2) / 2)
  | .gen, d => bessel s d

/-- Calling an implementation with keyword arguments. `_rbf_fn`'s positional parameter is called
`squared_dists`, that of the Matérn functions `dists`; passing a keyword of that name is a `TypeError`.
`_matern_gen_fn` requires `smoothness` — `_src/gp/kernels/numpy.py:12-43`. -/
noncomputable def KFn.run (bessel : Flt → ℝ → ℝ) (fn : KFn) (t : Tensor ℝ) (kw : Dict Flt) :
    Res (Tensor ℝ) :=
  match fn with
  | .rbf =>
    if Dict.has kw "squared_dists" then .error .type
    else .ok (t.map (KFn.value bessel none .rbf))
  | .gen =>
    match Dict.get? kw "smoothness" with
    | none => .error .type
    | some s => .ok (t.map (KFn.value bessel s .gen))
  | fn => .ok (t.map (KFn.value bessel none fn))

open Classical in
/-- `_set_matern_fn` — `gp/kernels/matern.py:61-81`. -/
noncomputable def setMaternFn (p : Param) : KFn :=
  if p.fixed then
    if p.val = Flt.fin (1 / 2) then .m05
    else if p.val = Flt.fin (3 / 2) then .m15
    else if p.val = Flt.fin (5 / 2) then .m25
    else if p.val = some ⊤ then .minf
    else .gen
  else .gen

/-- A kernel functor: its deformation, its smoothness (`none` for `RBF`), and the implementation
`_kernel_fn` bound by the latest `_make` — `gp/kernels/rbf.py:72-93`, `gp/kernels/matern.py:120-146`. -/
structure KernelObj where
  deform : Deform
  smoothness : Option Param
  fn : KFn

/-- `_make` — `gp/kernels/rbf.py:89-93`, `gp/kernels/matern.py:139-146`. The other functions bound by
`_make` read the parameters when called, so only the choice of implementation is remembered. -/
noncomputable def KernelObj.make (k : KernelObj) : KernelObj :=
  { k with fn := match k.smoothness with
      | none => .rbf
      | some p => setMaternFn p }

/-- `NamedParameter.filter_kwargs` — `gp/hyperparameter/scalar.py:321-325`. -/
def filterScalar (name : String) (p : Param) (kw : Dict Flt) : Dict Flt × Dict Flt :=
  (Dict.setdefault (kw.filter fun a => a.1 == name) name p.val, kw.filter fun a => !(a.1 == name))

/-- `key.startswith("length_scale")` — `gp/hyperparameter/vector.py:94`. -/
def startsLS (key : String) : Bool := "length_scale".toList.isPrefixOf key.toList

/-- `NamedVectorParameter.set_defaults` — `gp/hyperparameter/vector.py:87-90`. -/
def setDefaults (named : List (String × Param)) (params : Dict Flt) : Dict Flt :=
  named.foldl (fun d np => Dict.setdefault d np.1 np.2.val) params

/-- `NamedVectorParameter.filter_kwargs` — `gp/hyperparameter/vector.py:92-100`. -/
def filterVector (ps : List Param) (kw : Dict Flt) : Dict Flt × Dict Flt :=
  (setDefaults (namedFrom "length_scale" 0 ps) (kw.filter fun a => startsLS a.1),
    kw.filter fun a => !startsLS a.1)

/-- `dists / array` for a one-dimensional `array`, broadcast along the last axis — `gp/deformation/anisotropy.py:43-71`. -/
noncomputable def divLast (d : Tensor ℝ) (v : List ℝ) : Res (Tensor ℝ) :=
  match d.shape.getLast? with
  | none => .ok ⟨[v.length], fun k => d.flat 0 / v.getD k 0⟩
  | some f =>
    if v.length = f then .ok ⟨d.shape, fun k => d.flat k / v.getD (k % f) 0⟩
    else if v.length = 1 then .ok ⟨d.shape, fun k => d.flat k / v.getD 0 0⟩
    else if f = 1 then
      .ok ⟨d.shape.dropLast ++ [v.length], fun k => d.flat (k / v.length) / v.getD (k % v.length) 0⟩
    else .error .value

/-- `deformation(dists, **params)` — `gp/deformation/isotropy.py:82-89` (a scalar length scale; the
hierarchical case is in `Model/Hierarchical.lean`), `gp/deformation/isotropy.py:205-207`,
`gp/deformation/anisotropy.py:65-70` and `gp/hyperparameter/vector.py:102-110`. -/
noncomputable def Deform.call (df : Deform) (dists : Tensor ℝ) (params : Dict Flt) : Res (Tensor ℝ) :=
  match df with
  | .isotropy m p =>
    let len := (Dict.get? params "length_scale").getD p.val
    .ok (dists.map fun x => m.scaleBy x len.toReal)
  | .difference m p =>
    let len := (Dict.get? params "length_scale").getD p.val
    m.apply (dists.map fun x => x / len.toReal)
  | .anisotropy m ps =>
    match dists.shape.getLast? with
    | none => .error .index
    | some f =>
      if f = ps.length then
        match divLast dists ((Dict.values (filterVector ps params).1).map Flt.toReal) with
        | .error e => .error e
        | .ok t => m.apply t
      else .error .value

/-- `length_scale.filter_kwargs(**kwargs)` of the deformation's length scale — `gp/hyperparameter/scalar.py:321-325`, `gp/hyperparameter/vector.py:92-100`. -/
def Deform.filter : Deform → Dict Flt → Dict Flt × Dict Flt
  | .isotropy _ p, kw => filterScalar "length_scale" p kw
  | .difference _ p, kw => filterScalar "length_scale" p kw
  | .anisotropy _ ps, kw => filterVector ps kw

/-- The function `_fn` bound by `_make`, also returned by `get_opt_fn`: `embedded_fn` around
`applied_fn` around the implementation — `gp/hyperparameter/scalar.py:314-334`,
`gp/hyperparameter/vector.py:119-127`. The keywords `dists` and `self` collide with parameters of
`embedded_fn` and `filter_kwargs`: `TypeError`. -/
noncomputable def KernelObj.optFn (bessel : Flt → ℝ → ℝ) (k : KernelObj) (dists : Tensor ℝ)
    (kw : Dict Flt) : Res (Tensor ℝ) :=
  if Dict.has kw "dists" || Dict.has kw "self" then .error .type else
  let pk := k.deform.filter kw
  match k.deform.call dists pk.1 with
  | .error e => .error e
  | .ok t =>
    match k.smoothness with
    | none => k.fn.run bessel t pk.2
    | some p => k.fn.run bessel t (Dict.setdefault pk.2 "smoothness" p.val)

/-- `kernel(diffs, **kwargs)` — `gp/kernels/rbf.py:111`, `gp/kernels/matern.py:168`. -/
noncomputable def KernelObj.call (bessel : Flt → ℝ → ℝ) (k : KernelObj) (diffs : Tensor ℝ)
    (kw : Dict Flt) : Res (Tensor ℝ) :=
  if Dict.has kw "diffs" then .error .type else k.optFn bessel diffs kw

/-- `Kout` — `gp/kernels/rbf.py:113-114`, `gp/kernels/matern.py:170-171`: `squeeze(ones((1, 1)))`. -/
def KernelObj.kout : Tensor ℝ := (Tensor.squeeze ⟨[1, 1], fun _ => 1⟩)

/-- Which family of difference tensors the deformation works on — `gp/deformation/isotropy.py:92-160,210-270`, `gp/deformation/anisotropy.py:73-130`. -/
def Deform.kind : Deform → DeformKind
  | .isotropy _ _ => .isotropy
  | .difference _ _ => .differenceIsotropy
  | .anisotropy _ _ => .anisotropy

/-- `deformation.metric` — `gp/deformation/isotropy.py:41-58`. -/
def Deform.metric : Deform → Metric
  | .isotropy m _ => m
  | .difference m _ => m
  | .anisotropy m _ => m

/-- `deformation.pairwise_tensor` — see `defPairwise` — `gp/deformation/isotropy.py:92-119`. -/
noncomputable def Deform.pairwise (df : Deform) (data : Tensor ℝ) (nn : Tensor Int) : Res (Tensor ℝ) :=
  defPairwise df.kind df.metric data nn

/-- `deformation.crosswise_tensor` — see `defCrosswise` — `gp/deformation/isotropy.py:121-163`. -/
noncomputable def Deform.crosswise (df : Deform) (data nnData : Tensor ℝ) (idx nn : Tensor Int) :
    Res (Tensor ℝ) :=
  defCrosswise df.kind df.metric data nnData idx nn

end MuyGPyS
