import Verif.Py.Basic
import Mathlib.Data.EReal.Operations
import Mathlib.Analysis.SpecialFunctions.Log.Basic

/-!
# Model of scalar hyperparameters: `gp/hyperparameter/scalar.py`

Floating point numbers are extended reals or NaN (`none`); rounding is not modelled.
-/

namespace MuyGPyS
open Py

/-- A Python `float`: `none` is NaN, otherwise an extended real. Rounding is not modelled — `gp/hyperparameter/scalar.py:149-267`. -/
abbrev Flt := Option EReal

/-- `a < b` on floats: false when one of them is NaN — `gp/hyperparameter/scalar.py:149-267`. -/
def Flt.lt (a b : Flt) : Prop := ∃ x y, a = some x ∧ b = some y ∧ x < y

/-- The finite float with real value `x` — `gp/hyperparameter/scalar.py:149-267`. -/
def Flt.fin (x : ℝ) : Flt := some (x : EReal)

/-- `a + c` for a finite constant `c` — `gp/hyperparameter/scalar.py:149-206`. -/
noncomputable def Flt.addC (a : Flt) (c : ℝ) : Flt := a.map (· + (c : EReal))

/-- `np.log` (`log 0 = -inf`, `log` of a negative number is NaN, `log inf = inf`) — `gp/hyperparameter/scalar.py:138-139`. -/
noncomputable def Flt.log (a : Flt) : Flt :=
  a.bind fun x =>
    if x < 0 then none else if x = 0 then some ⊥ else if x = ⊤ then some ⊤
    else some ((Real.log x.toReal : ℝ) : EReal)

/-- A value argument of `ScalarParam(val, bounds)` — `gp/hyperparameter/scalar.py:74-83,149-206`. -/
inductive PyVal
  | num (x : Flt)       -- anything `float()` converts: int, float, bool, NumPy scalar
  | str (s : String)
  | sized               -- a non-string with `__len__`: list, tuple, ndarray of any rank
  | other               -- anything else; `float()` raises `TypeError`

/-- An entry of a bounds iterable — `gp/hyperparameter/scalar.py:208-267`. -/
inductive PyBound
  | num (x : Flt)       -- a real `Number`
  | complex             -- a `Number` that `float()` refuses
  | nonNumber

/-- A bounds argument of `ScalarParam(val, bounds)` — `gp/hyperparameter/scalar.py:208-267`. -/
inductive PyBounds
  | str (s : String)
  | nonIterable
  | unsized             -- an iterator: `len()` raises `TypeError`
  | seq (xs : List PyBound)

/-- State of a `ScalarParam`: `_val`, `_bounds`, `_fixed` — `gp/hyperparameter/scalar.py:74-83`. -/
structure Param where
  val : Flt
  lb : Flt
  ub : Flt
  fixed : Bool

open Classical in
/-- `Parameter._set_bounds` — `gp/hyperparameter/scalar.py:233-267`; returns `(_bounds, _fixed)`. -/
noncomputable def checkBounds : PyBounds → Res (Flt × Flt × Bool)
  | .str s => if s = "fixed" then .ok (Flt.fin 0, Flt.fin 0, true) else .error .value
  | .nonIterable => .error .value
  | .unsized => .error .type
  | .seq [a, b] =>
    match a, b with
    | .nonNumber, _ => .error .value
    | _, .nonNumber => .error .value
    | .complex, _ => .error .type
    | _, .complex => .error .type
    | .num l, .num u => if Flt.lt u l then .error .value else .ok (l, u, false)
  | .seq _ => .error .value

open Classical in
/-- `np.random.uniform(low, high)` with the generator's next draw `u` from `[0, 1)`:
`OverflowError` unless `high - low` is finite, otherwise `low + (high - low) * u` — `gp/hyperparameter/scalar.py:132,137-140`. -/
noncomputable def npUniform (low high : Flt) (u : ℝ) : Res Flt :=
  match low, high with
  | some l, some h =>
    if l ≠ ⊤ ∧ l ≠ ⊥ ∧ h ≠ ⊤ ∧ h ≠ ⊥ then
      .ok (Flt.fin (l.toReal + (h.toReal - l.toReal) * u))
    else .error .overflow
  | _, _ => .error .overflow

/-- `np.exp` of a finite float (the only use) — `gp/hyperparameter/scalar.py:136`. -/
noncomputable def Flt.exp (a : Flt) : Flt := a.map fun x => ((Real.exp x.toReal : ℝ) : EReal)

/-- `Parameter._sample_val` on one process — `gp/hyperparameter/scalar.py:124-147`, before the MPI
broadcast. `u` is the generator's next draw. -/
noncomputable def sampleLocal (lb ub : Flt) (fixed : Bool) (s : String) (u : ℝ) : Res Flt :=
  if fixed then .error .value
  else if s = "sample" then npUniform lb ub u
  else if s = "log_sample" then do
    let x ← npUniform (Flt.log lb) (Flt.log ub) u
    return Flt.exp x
  else .error .value

/-- `Parameter._sample_val` on rank `rank` — `gp/hyperparameter/scalar.py:124-147`: under MPI every
rank draws and then takes the value broadcast by rank 0. `draws r` is the next draw of rank `r`'s
generator. -/
noncomputable def sampleVal (mpi : Bool) (draws : Nat → ℝ) (rank : Nat)
    (lb ub : Flt) (fixed : Bool) (s : String) : Res Flt := do
  let own ← sampleLocal lb ub fixed s (draws rank)
  if mpi then sampleLocal lb ub fixed s (draws 0) else return own

/-- The environment of a process: MPI or not, its rank and every rank's next random draw — `gp/hyperparameter/scalar.py:124-147`, `_src/mpi_utils.py:162-166`. -/
structure Env where
  mpi : Bool := false
  rank : Nat := 0
  draws : Nat → ℝ

open Classical in
/-- Range check and store of `Parameter._set_val` — `gp/hyperparameter/scalar.py:183-206`. -/
noncomputable def checkRange (lb ub : Flt) (fixed : Bool) (x : Flt) : Res Flt :=
  if fixed then .ok x
  else if Flt.lt x (lb.addC (-(1e-5))) then .error .value
  else if Flt.lt (ub.addC 1e-5) x then .error .value
  else .ok x

/-- `Parameter._set_val` — `gp/hyperparameter/scalar.py:174-206`; returns the new `_val`.
(The branch for array values, line 180, is unreachable: arrays of every backend have `__len__` and
are refused on line 176.) -/
noncomputable def checkVal (env : Env) (lb ub : Flt) (fixed : Bool) : PyVal → Res Flt
  | .str s => do
    let x ← sampleVal env.mpi env.draws env.rank lb ub fixed s
    checkRange lb ub fixed x
  | .sized => .error .value
  | .other => .error .type
  | .num x => checkRange lb ub fixed x

namespace Param

/-- `ScalarParam(val, bounds)` — `gp/hyperparameter/scalar.py:74-83`: bounds first, then value. -/
noncomputable def new (env : Env) (val : PyVal) (bounds : PyBounds) : Res Param := do
  let (l, u, f) ← checkBounds bounds
  let v ← checkVal env l u f val
  return ⟨v, l, u, f⟩

/-- `p._set_val(val)` — `gp/hyperparameter/scalar.py:149-206`. -/
noncomputable def setVal (env : Env) (p : Param) (val : PyVal) : Res Param := do
  let v ← checkVal env p.lb p.ub p.fixed val
  return { p with val := v }

/-- `p._set_bounds(bounds)` — `gp/hyperparameter/scalar.py:208-267` (the value is not rechecked). -/
noncomputable def setBounds (p : Param) (bounds : PyBounds) : Res Param := do
  let (l, u, f) ← checkBounds bounds
  return { p with lb := l, ub := u, fixed := f }

/-- `p._set(rhs)` — `gp/hyperparameter/scalar.py:120-122`; also how `NamedParameter.__init__`
(`scalar.py:308`) and `KernelFn.set_params` (`kernels/kernel_fn.py:85-86`) store a parameter. -/
def setFrom (_p rhs : Param) : Param := ⟨rhs.val, rhs.lb, rhs.ub, rhs.fixed⟩

end Param

/-- One operation on a parameter held by a model — `gp/hyperparameter/scalar.py:89-267`. -/
inductive ParamOp
  | setVal (env : Env) (v : PyVal)
  | setBounds (b : PyBounds)
  | assign (env : Env) (v : PyVal) (b : PyBounds)   -- `p._set(ScalarParam(v, b))`

/-- Effect of an operation; a raising operation leaves the parameter as it was (every check of
`_set_val`/`_set_bounds` precedes the store) — `gp/hyperparameter/scalar.py:89-267`. -/
noncomputable def ParamOp.run (p : Param) : ParamOp → Param
  | .setVal env v => match p.setVal env v with | .ok q => q | .error _ => p
  | .setBounds b => match p.setBounds b with | .ok q => q | .error _ => p
  | .assign env v b => match Param.new env v b with | .ok q => p.setFrom q | .error _ => p

open Classical in
/-- `HomoscedasticNoise(val, bounds)` and `ShearNoise33(val, bounds)` —
`gp/noise/homoscedastic.py:42-58`, `gp/noise/shear.py:19-27`. -/
noncomputable def newHomoscedastic (env : Env) (val : PyVal) (bounds : PyBounds) : Res Param := do
  let q ← Param.new env val bounds
  if q.fixed = false ∧ (Flt.lt q.lb (Flt.fin 0) ∨ Flt.lt q.ub (Flt.fin 0)) then .error .value
  else return q

/-- The argument of `HeteroscedasticNoise(val)` — `gp/hyperparameter/tensor.py:64-97`. -/
inductive TensorArg
  | array (xs : List Flt)
  | str (s : String)
  | other

open Classical in
/-- `HeteroscedasticNoise(val)` — `gp/noise/heteroscedastic.py:38-46`, `gp/hyperparameter/tensor.py:64-97`;
returns the stored values (shape is irrelevant here). -/
noncomputable def newHeteroscedastic : TensorArg → Res (List Flt)
  | .array xs => if ∃ x ∈ xs, Flt.lt x (Flt.fin 0) then .error .value else .ok xs
  | .str _ => .error .value
  | .other => .error .value

/-- A noise object — `gp/noise/homoscedastic.py:42-58`, `gp/noise/heteroscedastic.py:38-46`, `gp/noise/null.py:25-30`, `gp/noise/shear.py:19-27`. -/
inductive NoiseObj
  | null
  | homoscedastic (p : Param)      -- also `ShearNoise33`; its name is "noise"
  | heteroscedastic (xs : List Flt)

/-- `noise.fixed()`: `NullNoise.__init__` (`gp/noise/null.py:25-27`) never sets `_fixed`, so
`Parameter.fixed` (`scalar.py:295`) raises `AttributeError`; `heteroscedastic.py:95-102`. -/
def NoiseObj.fixed : NoiseObj → Res Bool
  | .null => .error .attribute
  | .homoscedastic p => .ok p.fixed
  | .heteroscedastic _ => .ok true

/-- `noise()`: `NullNoise.__call__` (`gp/noise/null.py:29-30`), `Parameter.__call__`
(`scalar.py:276`), `TensorParam.__call__` (`tensor.py:99-106`). -/
def NoiseObj.vals : NoiseObj → List Flt
  | .null => [Flt.fin 0]
  | .homoscedastic p => [p.val]
  | .heteroscedastic xs => xs

end MuyGPyS
