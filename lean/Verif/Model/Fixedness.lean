import Verif.Model.Hyper

/-!
# Model of the `fixed` methods of the hyperparameter classes

`gp/hyperparameter/scalar.py:287-295`, `gp/hyperparameter/vector.py:65-73`, `gp/hyperparameter/tensor.py:108-116`,
`gp/hyperparameter/experimental/hierarchical.py:70-103`.
-/

namespace MuyGPyS
open Py

/-- What a `fixed()` call returns: a truth value, or — from `mm.all(generator)` with NumPy — the generator object itself — `gp/hyperparameter/vector.py:73`. -/
inductive Answer
  | bool (b : Bool)
  | generator

/-- `bool(answer)`, as in `if p.fixed():`; objects without a truth value of their own count as true — `gp/muygps.py:139-141`, `gp/hyperparameter/vector.py:136`. -/
def Answer.truthy : Answer → Bool
  | .bool b => b
  | .generator => true

/-- `answer is b`, as in `if p.fixed() is False:` — `gp/hyperparameter/scalar.py:125,183`, `gp/noise/homoscedastic.py:51`. -/
def Answer.isBool : Answer → Bool → Bool
  | .bool a, b => a == b
  | .generator, _ => false

/-- The array library behind `mm` — `_src/math/numpy.py:7`, `_src/math/jax.py:8`, `_src/math/torch.py:9`. -/
inductive MathLib
  | numpy | jax | torch
  deriving DecidableEq

/-- `mm.all` of a generator: NumPy reduces a zero-dimensional array holding the object, which is the object; JAX and PyTorch refuse it with `TypeError` — `_src/math/__init__.py:9`. -/
def allOfGenerator : MathLib → Res Answer
  | .numpy => .ok .generator
  | .jax => .error .type
  | .torch => .error .type

/-- A hyperparameter object — `gp/hyperparameter/scalar.py:19`, `gp/hyperparameter/vector.py:19`, `gp/hyperparameter/tensor.py:14`,
`gp/hyperparameter/experimental/hierarchical.py:15,94`. -/
inductive HyperObj
  | scalar (p : Param)
  | vector (ps : List Param)
  | tensor (xs : List ℝ)
  | hier (knots : List Param)
  | namedHier (knots : List Param)

/-- The `fixed` methods — `scalar.py:287-295`, `vector.py:65-73`, `tensor.py:108-116`, `experimental/hierarchical.py:70-78`. A
`NamedHierarchicalParameter` has no attribute `_knot_params` (`experimental/hierarchical.py:95-102`). -/
def HyperObj.fixed (lib : MathLib) : HyperObj → Res Answer
  | .scalar p => .ok (.bool p.fixed)
  | .vector _ => allOfGenerator lib
  | .tensor _ => .ok (.bool true)
  | .hier _ => allOfGenerator lib
  | .namedHier _ => .error .attribute

/-- The scalar parameters that `append_lists` of the object named `name` hands to the optimisers — `scalar.py:336-345`, `vector.py:129-139`, `tensor.py:123-124`,
`experimental/hierarchical.py:149-155`. -/
def HyperObj.optimised (name : String) : HyperObj → OptLists
  | .scalar p => appendLists ⟨[], [], []⟩ (name, p)
  | .vector ps => (namedFrom name 0 ps).foldl appendLists ⟨[], [], []⟩
  | .tensor _ => ⟨[], [], []⟩
  | .hier knots => (namedFrom name 0 knots).foldl appendLists ⟨[], [], []⟩
  | .namedHier knots => (namedFrom name 0 knots).foldl appendLists ⟨[], [], []⟩

end MuyGPyS
