import Verif.Model.Hyper

/-!
# Model of object identity: which models share mutable objects

The objects behind a model: its deformation (which owns the named length scale), its noise, its scale.
Python evaluates default arguments once, so a constructor call that leaves such an argument out receives
the one object made when the class was defined: `gp/kernels/matern.py:121-123`,
`gp/kernels/rbf.py:69-71`, `gp/muygps.py:96-97`. A kernel's smoothness is copied into the kernel's own
`NamedParam` (`matern.py:132`, `scalar.py:307-309`), so it is not shared even by default.

A store maps identities (list positions) to objects. A caller that passes one explicit object to two
constructors shares it knowingly; that is not modelled: an explicit argument is a new object.
-/

namespace MuyGPyS.Share
open Py MuyGPyS

/-- The kinds of scale whose `get_opt_fn` differ here: `FixedScale` returns its own value
(`scale.py:142-145`), the others an estimate. -/
inductive ScaleKind
  | fixed
  | estimated
  deriving DecidableEq

/-- A scale object: `val`, `_trained` — `gp/hyperparameter/scale.py:37-39`. -/
structure ScaleObj where
  kind : ScaleKind
  val : Flt
  trained : Bool

/-- The value `get_opt_fn(muygps)(...)` answers — `gp/hyperparameter/scale.py:111-145`. -/
def ScaleObj.optimum (z : ScaleObj) (estimate : Flt) : Flt :=
  match z.kind with
  | .fixed => z.val
  | .estimated => estimate

/-- A model object: references to its deformation, noise and scale; its kernel's own smoothness — `gp/muygps.py:93-126`. -/
structure ModelObj where
  smoothness : Option Param       -- `none`: an RBF kernel
  deform : Nat
  noise : Nat
  scale : Nat

/-- All mutable objects, by identity — `gp/muygps.py:93-110` (default arguments are evaluated once). -/
structure Store where
  deforms : List LenScale
  noises : List NoiseObj
  scales : List ScaleObj
  models : List ModelObj

/-- A fixed parameter `ScalarParam(x)` — `gp/hyperparameter/scalar.py:74-83`. -/
def constant (x : ℝ) : Param := ⟨Flt.fin x, Flt.fin 0, Flt.fin 0, true⟩

/-- The objects made when the classes are defined: the default deformations of `Matern` (identity 0)
and `RBF` (identity 1), `HomoscedasticNoise(0.0, "fixed")` and `FixedScale()` — `matern.py:121-123`,
`rbf.py:69-71`, `muygps.py:96-97`. -/
def Store.init : Store where
  deforms := [.scalar (constant 1), .scalar (constant 1)]
  noises := [.homoscedastic (constant 0)]
  scales := [⟨.fixed, Flt.fin 1, false⟩]
  models := []

/-- A constructor call `MuyGPS(Matern/RBF(...), noise=..., scale=...)`; `none` is an argument left out.
The kernel is made in the same expression — `gp/muygps.py:93-126`, `gp/kernels/matern.py:120-146`. -/
structure Call where
  smoothness : Option Param       -- `none`: an RBF kernel; `some p`: `Matern(smoothness=p)`
  deform : Option LenScale
  noise : Option NoiseObj
  scale : Option (ScaleKind × Flt)

/-- Put an argument in the store: an explicit object is new, a left-out one is the default — `gp/muygps.py:93-110`. -/
def place {α : Type} (l : List α) (arg : Option α) (default : Nat) : List α × Nat :=
  match arg with
  | none => (l, default)
  | some x => (l ++ [x], l.length)

/-- `MuyGPS.__init__` with `Matern.__init__` or `RBF.__init__` — `muygps.py:93-111`,
`matern.py:118-137`, `rbf.py:66-81`. -/
def Store.construct (s : Store) (c : Call) : Store :=
  let d := place s.deforms c.deform (if c.smoothness.isSome then 0 else 1)
  let n := place s.noises c.noise 0
  let z := place s.scales (c.scale.map fun kv => ⟨kv.1, kv.2, false⟩) 0
  { deforms := d.1, noises := n.1, scales := z.1,
    models := s.models ++ [⟨c.smoothness, d.2, n.2, z.2⟩] }

/-- What a user sees of model `i` — `gp/muygps.py:93-126`. -/
structure Seen where
  gp : GP
  kind : ScaleKind
  trained : Bool

/-- The model as the value seen through its references — `gp/muygps.py:93-126`. -/
def Store.see (s : Store) (i : Nat) : Option Seen :=
  match s.models[i]? with
  | none => none
  | some m =>
    match s.deforms[m.deform]?, s.noises[m.noise]?, s.scales[m.scale]? with
    | some ls, some n, some z => some ⟨⟨⟨ls, m.smoothness⟩, n, [z.val]⟩, z.kind, z.trained⟩
    | _, _, _ => none

/-- What a user can do — `gp/muygps.py:93-404`, `gp/kernels/kernel_fn.py:77-87`. -/
inductive Op
  | construct (c : Call)
  | setParams (i : Nat) (key : String) (q : Param)     -- `models[i].kernel.set_params(key=q)`
  | setNoise (i : Nat) (env : Env) (v : Flt)           -- `models[i].noise._set_val(v)`
  | optimizeScale (i : Nat) (estimate : Flt)           -- `models[i].optimize_scale(...)`
  | optimize (i : Nat) (env : Env) (opt : Dict Flt)    -- an optimiser run on `models[i]` answering `opt`

open Classical in
/-- The effect of one operation; an operation that raises changes nothing.
`set_params`: `kernel_fn.py:77-86`. `optimize_scale`: `muygps.py:399-403` with `ScaleFn._set`
(`scale.py:48-59,64-73`), in place. Optimisation: `deepcopy` of the model, so copies of its objects,
then the answer is stored in the copy (`_src/optimize/chassis/numpy.py:15-34`). -/
noncomputable def Store.step (s : Store) : Op → Store
  | .construct c => s.construct c
  | .setParams i key q =>
    match s.models[i]?, s.see i with
    | some m, some v =>
      match Dict.get? v.gp.kernel.hyperparameters key with
      | none => s
      | some p =>
        let k := v.gp.kernel.put key (p.setFrom q)
        { s with
          deforms := s.deforms.set m.deform k.ls
          models := s.models.set i { m with smoothness := k.smoothness } }
    | _, _ => s
  | .setNoise i env x =>
    match s.models[i]?, s.see i with
    | some m, some v =>
      match v.gp.noise.setVal env x with
      | .ok n => { s with noises := s.noises.set m.noise n }
      | .error _ => s
    | _, _ => s
  | .optimizeScale i estimate =>
    match s.models[i]? with
    | none => s
    | some m =>
      match s.scales[m.scale]? with
      | none => s
      | some z =>
        if ∃ r : EReal, z.optimum estimate = some r ∧ r ≤ 0 then s
        else { s with scales := s.scales.set m.scale ⟨z.kind, z.optimum estimate, true⟩ }
  | .optimize i env opt =>
    match s.see i with
    | none => s
    | some v =>
      match modelFromAnswer env v.gp opt with
      | .error _ => s
      | .ok gp =>
        { deforms := s.deforms ++ [gp.kernel.ls]
          noises := s.noises ++ [gp.noise]
          scales := s.scales ++ [⟨v.kind, gp.scale.headD none, v.trained⟩]
          models := s.models ++ [⟨gp.kernel.smoothness, s.deforms.length, s.noises.length,
            s.scales.length⟩] }

/-- A session: operations from the start of the program — `gp/muygps.py:93-404`. -/
noncomputable def session (ops : List Op) : Store := ops.foldl Store.step Store.init

end MuyGPyS.Share
