import Verif.Py.Basic
import Mathlib.Data.Real.Basic

/-!
# Model of the Bayesian optimisation drivers

`_src/optimize/chassis/numpy.py:81-154` and `optimize/experimental/chassis.py:195-312`.

`bayes_opt.BayesianOptimization` (version 1.4, the version the project asks for) is modelled by its
documented bookkeeping: a target space of evaluated points, a queue of points to probe, `maximize`
evaluating the queue, `init_points` random points and `n_iter` suggested points. Random points and
suggestions are arbitrary (universally quantified) functions. Points `P` are arbitrary; objective values
are real (a NaN objective is not modelled). Duplicate points are allowed, the default set at
`_src/optimize/chassis/numpy.py:96-97`.
-/

namespace MuyGPyS.Opt
open Py

variable {P : Type}

/-- The optimiser object: evaluated points with their targets, in order, and the queue — `_src/optimize/chassis/numpy.py:141-145` (bayes_opt). -/
structure Bayes (P : Type) where
  space : List (P × ℝ)
  queue : List P

/-- What one call of `maximize` draws from outside: its random points and its suggestions — `_src/optimize/chassis/numpy.py:147` (bayes_opt). -/
structure Source (P : Type) where
  random : Nat → P
  suggest : List (P × ℝ) → P

/-- `BayesianOptimization(...)` — `_src/optimize/chassis/numpy.py:141-145`. -/
def Bayes.new : Bayes P := ⟨[], []⟩

/-- `optimizer.probe(point, lazy=True)` — `_src/optimize/chassis/numpy.py:146`. -/
def Bayes.probe (o : Bayes P) (p : P) : Bayes P := { o with queue := o.queue ++ [p] }

/-- Evaluate the objective at a point and register it — `_src/optimize/chassis/numpy.py:147` (inside bayes_opt). -/
def Bayes.register (f : P → ℝ) (o : Bayes P) (p : P) : Bayes P := { o with space := o.space ++ [(p, f p)] }

/-- The `n_iter` suggested points — `_src/optimize/chassis/numpy.py:147` (inside bayes_opt). -/
def Bayes.iterate (f : P → ℝ) (src : Source P) : Nat → Bayes P → Bayes P
  | 0, o => o
  | n + 1, o => Bayes.iterate f src n (o.register f (src.suggest o.space))

/-- `optimizer.maximize(init_points, n_iter)`: when nothing is queued and nothing was evaluated, at least
one random point is drawn — `_src/optimize/chassis/numpy.py:147`. -/
def Bayes.maximize (f : P → ℝ) (src : Source P) (init n : Nat) (o : Bayes P) : Bayes P :=
  let init := if o.queue.isEmpty && o.space.isEmpty then max init 1 else init
  let points := o.queue ++ (List.range init).map src.random
  Bayes.iterate f src n { points.foldl (fun o p => o.register f p) o with queue := [] }

/-- The first entry with the largest target (`argmax`) — `_src/optimize/chassis/numpy.py:149` (inside bayes_opt). -/
noncomputable def best : List (P × ℝ) → Option (P × ℝ)
  | [] => none
  | a :: l =>
    match best l with
    | none => some a
    | some b => if b.2 ≤ a.2 then some a else some b

/-- `optimizer.max["params"]`: an exception when nothing was evaluated — `_src/optimize/chassis/numpy.py:149`. -/
noncomputable def Bayes.maxParams (o : Bayes P) : Res P :=
  match best o.space with
  | none => .error .type
  | some a => .ok a.1

/-- `_bayes_opt_optimize` up to the chosen point — `_src/optimize/chassis/numpy.py:126-154`: probe the
initial values, maximise, take the best. `init`, `nIter` are the keywords, with their defaults. -/
noncomputable def bayesOptimize (f : P → ℝ) (src : Source P) (x0 : P) (init nIter : Option Nat) : Res P :=
  (((Bayes.new.probe x0).maximize f src (init.getD 5) (nIter.getD 20))).maxParams

/-- Arguments of `optimize_from_tensors_mini_batch` that steer the loop — `optimize/experimental/chassis.py:46-62`. -/
structure MiniBatch where
  epochs : Nat
  keepState : Bool
  probePrevious : Bool
  anisotropic : Bool
  trainCount : Nat
  batchCount : Nat
  init : Option Nat
  nIter : Option Nat

/-- What the loop carries: the optimiser, the points to probe, the number of probed points reported,
the batch, and (for the theorems only) the objective evaluations `(epoch, point)` made so far — `optimize/experimental/chassis.py:196-218`. -/
structure Loop (P : Type) where
  opt : Bayes P
  toProbe : List P
  probed : Nat
  batch : List Nat
  trace : List (Nat × P)

/-- One pass of the loop — `optimize/experimental/chassis.py:218-292`. `objective batch` is the loss over
`batch`; `draw e` is the result of `np.random.choice` in epoch `e`. -/
noncomputable def epochStep (c : MiniBatch) (objective : List Nat → P → ℝ) (draw : Nat → List Nat)
    (src : Nat → Source P) (init nIter : Nat) (e : Nat) (s : Loop P) : Res (Loop P) := do
  let batch := if !c.keepState && c.batchCount < c.trainCount then draw e else s.batch
  let f := objective batch
  let opt := if c.keepState then s.opt else Bayes.new
  let points := if c.probePrevious then s.toProbe else if e = 0 then s.toProbe.take 1 else []
  let queued := points.foldl Bayes.probe opt
  let done := queued.maximize f (src e) init nIter
  let m ← done.maxParams
  -- `Anisotropy._length_scale_array` does not exist
  if c.anisotropic && decide (e + 1 < c.epochs) then .error .attribute
  else return ⟨done, s.toProbe ++ [m], s.probed + points.length, batch,
    s.trace ++ (done.space.drop opt.space.length).map fun a => (e, a.1)⟩

/-- `n` passes from epoch `e` on — `optimize/experimental/chassis.py:222`. -/
noncomputable def epochsFrom (c : MiniBatch) (objective : List Nat → P → ℝ) (draw : Nat → List Nat)
    (src : Nat → Source P) (init nIter : Nat) : Nat → Nat → Loop P → Res (Loop P)
  | _, 0, s => .ok s
  | e, n + 1, s => do
    let s ← epochStep c objective draw src init nIter e s
    epochsFrom c objective draw src init nIter (e + 1) n s

/-- What `optimize_from_tensors_mini_batch` reports: the chosen point, the points probed, the
optimisation steps; and, for the theorems, the evaluations made and the last batch — `optimize/experimental/chassis.py:307-319`. -/
structure Report (P : Type) where
  chosen : P
  probed : Nat
  steps : Nat
  trace : List (Nat × P)
  batch : List Nat

/-- `optimize_from_tensors_mini_batch` — `optimize/experimental/chassis.py:195-312`. `init_points` and
`n_iter` have no defaults here (lines 210-211): `KeyError`. -/
noncomputable def miniBatch (c : MiniBatch) (objective : List Nat → P → ℝ) (draw : Nat → List Nat)
    (src : Nat → Source P) (x0 : P) : Res (Report P) :=
  match c.init, c.nIter with
  | some init, some nIter => do
    let s ← epochsFrom c objective draw src init nIter 0 c.epochs
      ⟨Bayes.new, [x0], c.epochs * init, List.range c.trainCount, []⟩
    let m ← s.opt.maxParams
    return ⟨m, s.probed, c.epochs * nIter, s.trace, s.batch⟩
  | _, _ => .error .key

end MuyGPyS.Opt
