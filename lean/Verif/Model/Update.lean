import Verif.Model.MultiPipeline

/-!
# Model of in-place changes of models, statement by statement

`gp/kernels/kernel_fn.py:77-86`, `gp/muygps.py:377-403`, `gp/multivariate_muygps.py:342-383`,
`gp/hyperparameter/scalar.py:104-122,149-267`, `gp/hyperparameter/scale.py:60-73`.

A method that changes its object is a function from the object to the object it leaves behind and the outcome: what the call
returns, or the exception it raises. The stores are performed in the order of the source, so what a call that raises has already
stored is visible. What the calls return (`None` or a reference to the object) is not modelled.
-/

namespace MuyGPyS
open Py

/-- The loop of `KernelFn.set_params` — `gp/kernels/kernel_fn.py:85-86`: a name that is no hyperparameter is a `KeyError`, raised
when its turn comes. The values are parameters; other objects are not modelled. No function is rebuilt. -/
def Learner.setParams (L : Learner) : List (String × Param) → Learner × Res Unit
  | [] => (L, .ok ())
  | (key, q) :: rest =>
    match Dict.get? L.kernel.hyperparameters key with
    | none => (L, .error .key)
    | some p => Learner.setParams { L with kernel := L.kernel.put key (p.setFrom q) } rest

/-- `kernel._hyperparameters[key]._set_val(val)`: `gp/hyperparameter/scalar.py:174-206`, one store after the checks. -/
noncomputable def Learner.setKernelVal (env : Env) (L : Learner) (key : String) (v : PyVal) : Learner × Res Unit :=
  match Dict.get? L.kernel.hyperparameters key with
  | none => (L, .error .key)
  | some p =>
    match p.setVal env v with
    | .error e => (L, .error e)
    | .ok q => ({ L with kernel := L.kernel.put key q }, .ok ())

/-- `noise._set_val(val)` of the model's noise, see `NoiseObj.setVal` — `gp/hyperparameter/scalar.py:149-206`, `gp/hyperparameter/tensor.py:64-97`. -/
noncomputable def Learner.setNoiseVal (env : Env) (L : Learner) (v : Flt) : Learner × Res Unit :=
  match L.noise.setVal env v with
  | .error e => (L, .error e)
  | .ok n => ({ L with noise := n }, .ok ())

/-- `ScaleFn._set` — `gp/hyperparameter/scale.py:64-73`: checked, then stored. -/
noncomputable def Learner.storeScale (L : Learner) (s : ℝ) : Learner × Res Unit :=
  if s ≤ 0 then (L, .error .value) else ({ L with scale := s }, .ok ())

/-- `MuyGPS.optimize_scale` — `gp/muygps.py:399-403`: evaluate the kernel, compute the estimate, store it, rebuild. -/
noncomputable def Learner.optimizeScaleIn (bessel : Flt → ℝ → ℝ) (draws : List (List Nat)) (L : Learner) (pairwise nnTargets : Tensor ℝ) :
    Learner × Res Unit :=
  match L.trainee.R.kernel.call bessel pairwise [] with
  | .error e => (L, .error e)
  | .ok Kin =>
    match scaleOptFn L.scaleKind L.trainee.R.gp draws Kin nnTargets [] with
    | .error e => (L, .error e)
    | .ok none => (L, .error .notImplemented)
    | .ok (some s) =>
      match L.storeScale s with
      | (L', .error e) => (L', .error e)
      | (L', .ok _) => (L'.make, .ok ())

/-- The body of the loop of `MultivariateMuyGPS.optimize_scale` — `gp/multivariate_muygps.py:375-382`; `_make` is not called. -/
noncomputable def Learner.scaleOnlyIn (bessel : Flt → ℝ → ℝ) (draws : List (List Nat)) (n : Nat) (pairwise nnTargets : Tensor ℝ)
    (L : Learner) (i : Nat) : Learner × Res Unit :=
  match L.trainee.R.kernel.call bessel pairwise [] with
  | .error e => (L, .error e)
  | .ok Kin =>
    match sliceLast nnTargets i with
    | .error e => (L, .error e)
    | .ok y =>
      match y.reshape [y.shape.headD 0, n, 1] with
      | .error e => (L, .error e)
      | .ok y =>
        match scaleOptFn L.scaleKind L.trainee.R.gp draws Kin y [] with
        | .error e => (L, .error e)
        | .ok none => (L, .error .notImplemented)
        | .ok (some s) => L.storeScale s

/-- The loop over the models, from number `i` on: the first exception ends it — `gp/multivariate_muygps.py:342-384`. -/
noncomputable def scaleEachIn (bessel : Flt → ℝ → ℝ) (draws : Nat → List (List Nat)) (n : Nat) (pairwise nnTargets : Tensor ℝ) :
    Nat → List Learner → List Learner × Res Unit
  | _, [] => ([], .ok ())
  | i, L :: Ls =>
    match L.scaleOnlyIn bessel (draws i) n pairwise nnTargets i with
    | (L', .error e) => (L' :: Ls, .error e)
    | (L', .ok _) =>
      let r := scaleEachIn bessel draws n pairwise nnTargets (i + 1) Ls
      (L' :: r.1, r.2)

/-- `MultivariateMuyGPS.optimize_scale` — `gp/multivariate_muygps.py:367-383`; `draws i` is what `np.random.choice` returns for
model `i`. -/
noncomputable def multiOptimizeScaleIn (bessel : Flt → ℝ → ℝ) (draws : Nat → List (List Nat)) (pairwise nnTargets : Tensor ℝ)
    (Ls : List Learner) : List Learner × Res Unit :=
  match nnTargets.shape with
  | [_, n, r] =>
    if r ≠ Ls.length then (Ls, .error .value)
    else scaleEachIn bessel draws n pairwise nnTargets 0 Ls
  | _ => (Ls, .error .value)

/-- What a user can do to a model in place — `gp/kernels/kernel_fn.py:77-87`, `gp/hyperparameter/scalar.py:149-206`, `gp/muygps.py:373-404`. -/
inductive Change
  | setParams (kws : List (String × Param))               -- `model.kernel.set_params(**kws)`
  | setVal (env : Env) (key : String) (v : PyVal)         -- `model.kernel._hyperparameters[key]._set_val(v)`
  | setNoise (env : Env) (v : Flt)                        -- `model.noise._set_val(v)`
  | optimizeScale (draws : List (List Nat)) (pairwise nnTargets : Tensor ℝ)   -- `model.optimize_scale(pairwise, nnTargets)`

/-- The effect of one change — `gp/kernels/kernel_fn.py:77-87`, `gp/hyperparameter/scalar.py:149-206`, `gp/muygps.py:373-404`. -/
noncomputable def Change.run (bessel : Flt → ℝ → ℝ) (L : Learner) : Change → Learner × Res Unit
  | .setParams kws => L.setParams kws
  | .setVal env key v => L.setKernelVal env key v
  | .setNoise env v => L.setNoiseVal env v
  | .optimizeScale draws pw y => L.optimizeScaleIn bessel draws pw y

/-- A history of changes, each of which may raise (the user catches the exceptions): the model at the end and the outcomes — `gp/kernels/kernel_fn.py:77-87`, `gp/hyperparameter/scalar.py:149-206`, `gp/muygps.py:373-404`. -/
noncomputable def Learner.changes (bessel : Flt → ℝ → ℝ) : Learner → List Change → Learner × List (Res Unit)
  | L, [] => (L, [])
  | L, c :: cs =>
    let r := c.run bessel L
    let q := Learner.changes bessel r.1 cs
    (q.1, r.2 :: q.2)

end MuyGPyS
