import Verif.Model.Memory

/-!
# Specification for C63: what a session means if arrays were values

The user's arrays are mathematical arrays; a call computes new arrays from its arguments and changes none; writing into an array changes
that array only. The functions are those of the other models.
-/

namespace MuyGPyS.Mem
open Py MuyGPyS

/-- The value of a held array. -/
def argVal (vals : List (Tensor ℝ)) (i : Nat) : Res (Tensor ℝ) :=
  match vals[i]? with
  | some t => .ok t
  | none => .error .key

/-- The new arrays of a call. -/
noncomputable def Call.value (vals : List (Tensor ℝ)) : Call → Res (List (Tensor ℝ))
  | .kernel k d kw => do
    let d ← argVal vals d
    let r ← k.call maternGen d kw
    return [r]
  | .crosswise df a b idx nn => do
    let a ← argVal vals a
    let b ← argVal vals b
    let r ← df.crosswise a b idx nn
    return [r]
  | .pairwise df a nn => do
    let a ← argVal vals a
    let r ← df.pairwise a nn
    return [r]
  | .take a idx => do
    let a ← argVal vals a
    let r ← a.take idx
    return [r]
  | .perturb ν K kw => do
    let K ← argVal vals K
    let r ← ν.perturb K kw
    return [r]
  | .mean gp K C y kw => do
    let K ← argVal vals K
    let C ← argVal vals C
    let y ← argVal vals y
    let r ← gp.optMean K C y kw
    return [r]
  | .variance gp K C => do
    let K ← argVal vals K
    let C ← argVal vals C
    let r ← gp.posteriorVariance K C
    return [r]
  | .coefficients gp K y => do
    let K ← argVal vals K
    let y ← argVal vals y
    let r ← gp.fastCoefficients K y
    return [r]
  | .fastMean C c => do
    let C ← argVal vals C
    let c ← argVal vals c
    let r ← MuyGPyS.fastPosteriorMean C c
    return [r]
  | .regress R idx nn a b y => do
    let a ← argVal vals a
    let b ← argVal vals b
    let y ← argVal vals y
    let r ← MuyGPyS.regressFromIndices maternGen R idx nn a b y
    return [r.1, r.2]

/-- The user's program with arrays as values: the arrays and the outcome of every step so far. -/
structure Values where
  vals : List (Tensor ℝ)
  log : List (Option Err)

/-- One step. -/
noncomputable def Values.step (σ : Values) : Step → Values
  | .input t => ⟨σ.vals ++ [t], σ.log ++ [none]⟩
  | .write i f =>
    match argVal σ.vals i with
    | .ok t => ⟨σ.vals.set i ⟨t.shape, fun k => f k (t.flat k)⟩, σ.log ++ [none]⟩
    | .error e => ⟨σ.vals, σ.log ++ [some e]⟩
  | .call c =>
    match c.value σ.vals with
    | .ok rs => ⟨σ.vals ++ rs, σ.log ++ [none]⟩
    | .error e => ⟨σ.vals, σ.log ++ [some e]⟩

/-- The calls whose result is guaranteed to be a new array: all but `NullNoise.perturb`. -/
def Call.Fresh : Call → Prop
  | .perturb .null _ _ => False
  | _ => True

/-- See `Call.Fresh`. -/
def Step.Fresh : Step → Prop
  | .call c => c.Fresh
  | _ => True

end MuyGPyS.Mem
