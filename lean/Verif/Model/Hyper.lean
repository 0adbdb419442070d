import Verif.Model.Param
import Mathlib.Data.List.Infix

/-!
# Model of named hyperparameters and of models as collections of them

`gp/hyperparameter/scalar.py:298-348`, `gp/hyperparameter/vector.py`, `gp/kernels/*.py`,
`gp/muygps.py:128-162`, `_src/optimize/chassis/numpy.py:15-34`.
-/

namespace MuyGPyS
open Py

/-- Name of element `i` of a `NamedVectorParameter` — `gp/hyperparameter/vector.py:78-81`. -/
def vecName (base : String) (i : Nat) : String := base ++ toString i

/-- The length scale of a deformation: `NamedParam("length_scale", p)` for `Isotropy` and
`DifferenceIsotropy` (`gp/deformation/isotropy.py:47-48`), `NamedVectorParam("length_scale", ps)` for
`Anisotropy` (`gp/deformation/anisotropy.py:41`). Names are a function of the position. -/
inductive LenScale
  | scalar (p : Param)
  | vector (ps : List Param)

/-- The named parameters of a `NamedVectorParameter`, numbered from `i` — `gp/hyperparameter/vector.py:76-85`. -/
def namedFrom (base : String) : Nat → List Param → List (String × Param)
  | _, [] => []
  | i, p :: ps => (vecName base i, p) :: namedFrom base (i + 1) ps

/-- The `NamedParameter` objects of a length scale, in order — `gp/hyperparameter/scalar.py:298-312`, `gp/hyperparameter/vector.py:76-85`. -/
def LenScale.named : LenScale → List (String × Param)
  | .scalar p => [("length_scale", p)]
  | .vector ps => namedFrom "length_scale" 0 ps

/-- A kernel as a collection of hyperparameters; `smoothness = none` for `RBF` — `gp/kernels/kernel_fn.py:60-76`, `gp/kernels/rbf.py:72-93`, `gp/kernels/matern.py:120-146`. -/
structure Kernel where
  ls : LenScale
  smoothness : Option Param

/-- The `NamedParameter` objects reachable from a kernel — `gp/kernels/kernel_fn.py:71-72`,
`gp/kernels/matern.py:139-141`. -/
def Kernel.named (k : Kernel) : List (String × Param) :=
  k.ls.named ++ (k.smoothness.map fun p => ("smoothness", p)).toList

/-- `populate` of every named parameter into `_hyperparameters` — `scalar.py:347-348`,
`vector.py:141-143`, `kernel_fn.py:67-72`, `matern.py:139-141`. The dictionary holds references to
the objects in `named`. -/
def Kernel.hyperparameters (k : Kernel) : Dict Param :=
  k.named.foldl (fun d np => Dict.set d np.1 np.2) []

/-- A univariate model: kernel, noise and variance scale — `gp/muygps.py:93-126`. -/
structure GP where
  kernel : Kernel
  noise : NoiseObj
  scale : List Flt

/-- `(names, params, bounds)` as built by the `append_lists` methods — `gp/hyperparameter/scalar.py:336-345`, `gp/hyperparameter/vector.py:129-139`. -/
structure OptLists where
  names : List String
  params : List Flt
  bounds : List (Flt × Flt)

/-- `NamedParameter.append_lists` — `scalar.py:336-345`, and the loop body of
`NamedVectorParameter.append_lists` — `vector.py:135-139`. -/
def appendLists (o : OptLists) (np : String × Param) : OptLists :=
  if np.2.fixed then o
  else ⟨o.names ++ [np.1], o.params ++ [np.2.val], o.bounds ++ [(np.2.lb, np.2.ub)]⟩

/-- `KernelFn.get_opt_params` / `Matern.get_opt_params` — `kernel_fn.py:116-120`, `matern.py:188-190`. -/
def Kernel.getOptParams (k : Kernel) : OptLists :=
  let o := k.ls.named.foldl appendLists ⟨[], [], []⟩
  match k.smoothness with
  | none => o
  | some p => appendLists o ("smoothness", p)

/-- `noise.append_lists` — `scalar.py:336-345` for homoscedastic (and shear) noise, `tensor.py:123-124`
(`pass`) for heteroscedastic noise, `noise_fn.py:32-38` (`NotImplementedError`) for `NullNoise`. -/
def NoiseObj.appendLists (o : OptLists) : NoiseObj → Res OptLists
  | .null => .error .notImplemented
  | .homoscedastic p => .ok (MuyGPyS.appendLists o ("noise", p))
  | .heteroscedastic _ => .ok o

/-- `MuyGPS.get_opt_params` — `gp/muygps.py:160-162`. -/
def GP.getOptParams (m : GP) : Res OptLists := m.noise.appendLists m.kernel.getOptParams

/-- `MuyGPS.fixed` — `gp/muygps.py:138-143`. -/
def GP.fixed (m : GP) : Res Bool :=
  if m.kernel.hyperparameters.all (fun np => np.2.fixed) then do
    let b ← m.noise.fixed
    return b
  else return false

/-- Write through the reference held in `_hyperparameters[key]` — `gp/kernels/kernel_fn.py:77-87`. -/
def updNamed (key : String) (base : String) (q : Param) : Nat → List Param → List Param
  | _, [] => []
  | i, p :: ps => (if vecName base i = key then q else p) :: updNamed key base q (i + 1) ps

/-- The kernel after the `NamedParameter` called `key` was overwritten — `gp/kernels/kernel_fn.py:77-87`. -/
def Kernel.put (k : Kernel) (key : String) (q : Param) : Kernel where
  ls := match k.ls with
    | .scalar p => .scalar (if "length_scale" = key then q else p)
    | .vector ps => .vector (updNamed key "length_scale" q 0 ps)
  smoothness := k.smoothness.map fun p => if "smoothness" = key then q else p

/-- `ret.kernel._hyperparameters[key]._set_val(val)` — `_src/optimize/chassis/numpy.py:32`. -/
noncomputable def Kernel.setHyper (env : Env) (k : Kernel) (key : String) (v : Flt) : Res Kernel :=
  match Dict.get? k.hyperparameters key with
  | none => .error .key
  | some p => do
    let q ← p.setVal env (.num v)
    return k.put key q

/-- `ret.noise._set_val(val)` — `_src/optimize/chassis/numpy.py:26`. `NullNoise` has no `_fixed`
(`AttributeError` at `scalar.py:183`); `TensorParam._set_val` refuses a float (`tensor.py:81-86`). -/
noncomputable def NoiseObj.setVal (env : Env) (v : Flt) : NoiseObj → Res NoiseObj
  | .null => .error .attribute
  | .homoscedastic p => do
    let q ← p.setVal env (.num v)
    return .homoscedastic q
  | .heteroscedastic _ => .error .value

open Classical in
/-- The clamp of `_new_muygps` — `_src/optimize/chassis/numpy.py:21-24`. -/
noncomputable def clampFlt (lb ub v : Flt) : Flt :=
  if Flt.lt v lb then lb else if Flt.lt ub v then ub else v

/-- `"_knot" in key` — `_src/optimize/chassis/numpy.py:27`. -/
def hasKnot (key : String) : Prop := "_knot".toList <:+: key.toList

open Classical in
/-- One iteration of the loop of `_new_muygps` — `_src/optimize/chassis/numpy.py:18-32`. A key
containing `_knot` ends in a `KeyError` or (no class defines `_update_knot_values`) an
`AttributeError`; both are reported as `AttributeError`. -/
noncomputable def newStep (env : Env) (opt : Dict Flt) (ret : GP) (kb : String × Flt × Flt) : Res GP :=
  match Dict.get? opt kb.1 with
  | none => .error .key
  | some v =>
    let val := clampFlt kb.2.1 kb.2.2 v
    if kb.1 = "noise" then do
      let n ← ret.noise.setVal env val
      return { ret with noise := n }
    else if hasKnot kb.1 then .error .attribute
    else do
      let k ← ret.kernel.setHyper env kb.1 val
      return { ret with kernel := k }

/-- `_new_muygps` — `_src/optimize/chassis/numpy.py:15-34`. `deepcopy` makes the model a value; the
final `_make()` rebinds functions (`Model/ScaleHist.lean`) and does not touch hyperparameters. -/
noncomputable def newMuygps (env : Env) (m : GP) (names : List String) (bounds : List (Flt × Flt))
    (opt : Dict Flt) : Res GP :=
  (names.zip bounds).foldlM (newStep env opt) m

/-- `_scipy_optimize` / `_bayes_opt_optimize` after the optimiser answered `opt` —
`_src/optimize/chassis/numpy.py:63,79-81,125,149`. -/
noncomputable def modelFromAnswer (env : Env) (m : GP) (opt : Dict Flt) : Res GP := do
  let o ← m.getOptParams
  newMuygps env m o.names o.bounds opt

end MuyGPyS
