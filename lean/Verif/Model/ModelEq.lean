import Verif.Model.Hyper

/-!
# Model of `MuyGPS.__eq__`: `gp/muygps.py:553-567`
-/

namespace MuyGPyS
open Py

/-- `a == b` on floats: NaN equals nothing — `gp/muygps.py:553-567`. -/
def Flt.eq (a b : Flt) : Prop := ∃ x, a = some x ∧ b = some x

open Classical in
/-- The generator `all(self...[h]() == rhs...[h]() for h in self...)`: keys of the left model in order,
stopping at the first difference; a key the right model lacks is a `KeyError` —
`gp/muygps.py:557-561`. -/
noncomputable def eqHyper (d : Dict Param) : List (String × Param) → Res Bool
  | [] => .ok true
  | (h, p) :: rest =>
    match Dict.get? d h with
    | none => .error .key
    | some q => if Flt.eq p.val q.val then eqHyper d rest else .ok false

/-- The value of `x == y` for scalars and arrays: a truth value, or an elementwise array — `gp/muygps.py:553-567`. -/
inductive Cmp
  | bool (b : Bool)
  | array (bs : List Bool)

/-- `bool(x == y)`: an array with other than one element has no truth value — `gp/muygps.py:553-567`. -/
def Cmp.truth : Cmp → Res Bool
  | .bool b => .ok b
  | .array [b] => .ok b
  | .array _ => .error .value

/-- Whether `noise()` is an array — `gp/muygps.py:553-567`, `gp/hyperparameter/tensor.py:99-106`. -/
def NoiseObj.isArray : NoiseObj → Bool
  | .heteroscedastic _ => true
  | _ => false

open Classical in
/-- `self.noise() == rhs.noise()` — `gp/muygps.py:562`. Arrays are kept flat: arrays of one length are
taken to have one shape, arrays of different lengths (neither of them one) not to broadcast. -/
noncomputable def eqNoise (a b : NoiseObj) : Res Cmp :=
  if a.isArray || b.isArray then
    match a.vals, b.vals with
    | [x], ys => .ok (.array (ys.map fun y => decide (Flt.eq x y)))
    | xs, [y] => .ok (.array (xs.map fun x => decide (Flt.eq x y)))
    | xs, ys =>
      if xs.length = ys.length then .ok (.array (List.zipWith (fun x y => decide (Flt.eq x y)) xs ys))
      else .error .value
  else .ok (.bool (decide (Flt.eq (a.vals.headD none) (b.vals.headD none))))

open Classical in
/-- `self.scale() == rhs.scale()` — `gp/muygps.py:563`; the scale of a univariate model is a scalar. -/
noncomputable def eqScale (a b : List Flt) : Bool := decide (Flt.eq (a.headD none) (b.headD none))

/-- `a == b` for two `MuyGPS` models: the tuple is built in full, then `all` tests its members in
order — `gp/muygps.py:553-567`. -/
noncomputable def GP.eq (a b : GP) : Res Bool := do
  let hk ← eqHyper b.kernel.hyperparameters a.kernel.hyperparameters
  let nz ← eqNoise a.noise b.noise
  let sc := eqScale a.scale b.scale
  if hk then do
    let n ← nz.truth
    return n && sc
  else return false

end MuyGPyS
