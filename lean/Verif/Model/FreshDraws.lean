import Verif.Model.Train

/-!
# Training with an objective that draws random numbers

`Model/Train` gives the optimisers an objective that draws the same samples in all evaluations. In the code every evaluation of an objective with a
variance loss and a `DownSampleScale` draws new ones (`gp/hyperparameter/scale.py:278-283`). Here evaluation number `k` (from 0) draws `draws k`.
-/

namespace MuyGPyS.Opt
open Py

variable {P : Type}

/-- Evaluate the objective at a point and register it, the number of points registered before being the number of the evaluation —
`_src/optimize/chassis/numpy.py:147` (inside bayes_opt). -/
def Bayes.registerFresh (f : Nat → P → ℝ) (o : Bayes P) (p : P) : Bayes P := { o with space := o.space ++ [(p, f o.space.length p)] }

/-- The `n_iter` suggested points — `_src/optimize/chassis/numpy.py:147` (inside bayes_opt). -/
def Bayes.iterateFresh (f : Nat → P → ℝ) (src : Source P) : Nat → Bayes P → Bayes P
  | 0, o => o
  | n + 1, o => Bayes.iterateFresh f src n (o.registerFresh f (src.suggest o.space))

/-- `optimizer.maximize(init_points, n_iter)` — `_src/optimize/chassis/numpy.py:147`. -/
def Bayes.maximizeFresh (f : Nat → P → ℝ) (src : Source P) (init n : Nat) (o : Bayes P) : Bayes P :=
  let init := if o.queue.isEmpty && o.space.isEmpty then max init 1 else init
  let points := o.queue ++ (List.range init).map src.random
  Bayes.iterateFresh f src n { points.foldl (fun o p => o.registerFresh f p) o with queue := [] }

/-- `_bayes_opt_optimize` up to the chosen point — `_src/optimize/chassis/numpy.py:126-154`. -/
noncomputable def bayesOptimizeFresh (f : Nat → P → ℝ) (src : Source P) (x0 : P) (init nIter : Option Nat) : Res P :=
  (((Bayes.new.probe x0).maximizeFresh f src (init.getD 5) (nIter.getD 20))).maxParams

end MuyGPyS.Opt

namespace MuyGPyS
open Py

/-- `_bayes_opt_optimize` — `_src/optimize/chassis/numpy.py:126-154`, with fresh draws in every evaluation. -/
noncomputable def bayesLearnFresh (env : Env) (order : KeyOrder) (bessel : Flt → ℝ → ℝ) (src : Opt.Source (List Flt)) (init nIter : Option Nat)
    (L : Learner) (l : LossKind) (draws : Nat → List (List Nat)) (d : TrainData) : Res Learner := do
  let o ← L.gp.getOptParams
  let keys := order.keys o.names
  let x0 := keys.map fun k => (Dict.get? (o.names.zip o.params) k).getD none
  let x ← Opt.bayesOptimizeFresh (fun k x => valueOf (L.objective bessel l (draws k) d (keys.zip x))) src x0 init nIter
  newLearner env L o.names o.bounds (keys.zip x)

/-- `_scipy_optimize` — `_src/optimize/chassis/numpy.py:56-81`, with fresh draws in every evaluation: `minimizer` is given the function that
evaluation number `k` computes. -/
noncomputable def scipyLearnFresh (env : Env) (bessel : Flt → ℝ → ℝ)
    (minimizer : (Nat → List Flt → Res (Option ℝ)) → List Flt → List (Flt × Flt) → Res (List Flt))
    (L : Learner) (l : LossKind) (draws : Nat → List (List Nat)) (d : TrainData) : Res Learner := do
  let o ← L.gp.getOptParams
  let x ← minimizer (fun k => arrayObjFn (L.objective bessel l (draws k) d) o.names) o.params o.bounds
  if x.length < o.names.length then .error .index
  else newLearner env L o.names o.bounds (o.names.zip x)

end MuyGPyS
