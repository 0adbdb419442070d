import Verif.Model.Objective
import Verif.Model.ScaleHist
import Verif.Model.BayesOpt
import Verif.Model.Batch
import Mathlib.Data.List.Sort

/-!
# Model of training: `_src/optimize/chassis/numpy.py`, `optimize/chassis.py`, `examples/regress.py:120-235`,
`examples/classify.py:36-160` (numpy backend, univariate models, no MPI)

A `Learner` is a `MuyGPS` object with its parameter objects; `Learner.gp` and `Learner.trainee` are the two views of it used
by `Model/Hyper.lean` (parameters) and `Model/Objective.lean` (computed numbers).
-/

namespace MuyGPyS
open Py

/-- A `MuyGPS` object — `gp/muygps.py:80-130`: kernel and noise parameters, metric, whether the single length scale belongs to
a `DifferenceIsotropy`, the bound kernel implementation, and the scale with the value captured by `_make`. -/
structure Learner where
  kernel : Kernel
  noise : NoiseObj
  metric : Metric
  difference : Bool
  fn : KFn
  scaleKind : ScaleKind
  scale : ℝ
  boundScale : ℝ

/-- The hyperparameters of the model — `gp/muygps.py:93-126`. -/
def Learner.gp (L : Learner) : GP := ⟨L.kernel, L.noise, [Flt.fin L.scale]⟩

/-- The deformation object holding the length scale(s) — `gp/kernels/kernel_fn.py:60-76`. -/
def Learner.deform (L : Learner) : Deform :=
  match L.kernel.ls with
  | .scalar p => if L.difference then .difference L.metric p else .isotropy L.metric p
  | .vector ps => .anisotropy L.metric ps

/-- The noise model by its stored value(s) — `gp/noise/homoscedastic.py:60-88`, `gp/noise/heteroscedastic.py:48-67`. -/
noncomputable def NoiseObj.noise : NoiseObj → Noise
  | .null => .null
  | .homoscedastic p => .homoscedastic p.val.toReal
  | .heteroscedastic xs => .heteroscedastic ⟨[xs.length], fun k => (xs.getD k none).toReal⟩

/-- The model as a computing object — `gp/muygps.py:343-371`. -/
noncomputable def Learner.trainee (L : Learner) : Trainee :=
  ⟨⟨⟨L.deform, L.kernel.smoothness, L.fn⟩, ⟨L.noise.noise, KernelObj.kout, L.scale, L.boundScale⟩⟩, L.scaleKind⟩

/-- `MuyGPS._make` — `gp/muygps.py:112-130`: `kernel._make()` chooses the implementation (`gp/kernels/rbf.py:89-93`,
`gp/kernels/matern.py:139-146`), and the variance function captures the current scale. -/
noncomputable def Learner.make (L : Learner) : Learner :=
  { L with
    fn := match L.kernel.smoothness with
      | none => .rbf
      | some p => setMaternFn p
    boundScale := L.scale }

/-- `_new_muygps` — `_src/optimize/chassis/numpy.py:15-34`: a copy with the answer written into it, then `_make()`. -/
noncomputable def newLearner (env : Env) (L : Learner) (names : List String) (bounds : List (Flt × Flt)) (opt : Dict Flt) :
    Res Learner := do
  let g ← newMuygps env L.gp names bounds opt
  return ({ L with kernel := g.kernel, noise := g.noise } : Learner).make

/-- The data of one optimisation: `crosswise_diffs, pairwise_diffs, batch_targets, batch_nn_targets` — `gp/muygps.py:478-551`. -/
structure TrainData where
  crosswise : Tensor ℝ
  pairwise : Tensor ℝ
  targets : Tensor ℝ
  nnTargets : Tensor ℝ

/-- The objective function the optimisers get — `optimize/chassis.py:176-198`. -/
noncomputable def Learner.objective (bessel : Flt → ℝ → ℝ) (L : Learner) (l : LossKind) (draws : List (List Nat)) (d : TrainData)
    (kw : Dict Flt) : Res (Option ℝ) :=
  objFn bessel L.trainee l none draws d.pairwise d.crosswise d.nnTargets d.targets kw

/-- `_scipy_optimize` — `_src/optimize/chassis/numpy.py:56-81`. `minimizer` stands for
`scipy.optimize.minimize(fun, x0, method="L-BFGS-B", bounds=…).x`, an arbitrary function here. Simplification: all evaluations draw the same samples
(only a variance loss with a `DownSampleScale` draws any); `Model/FreshDraws` is without it. -/
noncomputable def scipyLearn (env : Env) (bessel : Flt → ℝ → ℝ)
    (minimizer : (List Flt → Res (Option ℝ)) → List Flt → List (Flt × Flt) → Res (List Flt))
    (L : Learner) (l : LossKind) (draws : List (List Nat)) (d : TrainData) : Res Learner := do
  let o ← L.gp.getOptParams
  let x ← minimizer (arrayObjFn (L.objective bessel l draws d) o.names) o.params o.bounds
  if x.length < o.names.length then .error .index
  else newLearner env L o.names o.bounds (o.names.zip x)

/-- `sorted` on a list of strings: lexicographic order — `_src/optimize/chassis/numpy.py:141-145` (inside bayes_opt). -/
def sortedKeys (names : List String) : List String := names.insertionSort fun a b => a.toList ≤ b.toList

/-- The order of the keys of a `bayes_opt.TargetSpace`, which depends on the version of that package (`pyproject.toml:43` asks
for any version from 1.4.2 on): `sorted(pbounds)` in 1.x, or the order of the dictionary of bounds. Points are stored as arrays
in this order, and the objective is called with keyword arguments in this order. -/
inductive KeyOrder
  | sorted
  | given

/-- The keys in order — `_src/optimize/chassis/numpy.py:141-145` (inside bayes_opt). -/
def KeyOrder.keys : KeyOrder → List String → List String
  | .sorted, names => sortedKeys names
  | .given, names => names

/-- The number an evaluation of the objective yields. Simplification: the Bayesian optimiser is modelled for objectives that
yield a number at every point it asks for (an exception would end the optimisation); the value here is irrelevant otherwise — `_src/optimize/chassis/numpy.py:119-149`. -/
noncomputable def valueOf (r : Res (Option ℝ)) : ℝ :=
  match r with
  | .ok (some x) => x
  | _ => 0

/-- `_bayes_opt_optimize` — `_src/optimize/chassis/numpy.py:126-154`; see `Opt.bayesOptimize` for the optimiser.
Simplification: all evaluations draw the same samples, see `scipyLearn`. -/
noncomputable def bayesLearn (env : Env) (order : KeyOrder) (bessel : Flt → ℝ → ℝ) (src : Opt.Source (List Flt)) (init nIter : Option Nat)
    (L : Learner) (l : LossKind) (draws : List (List Nat)) (d : TrainData) : Res Learner := do
  let o ← L.gp.getOptParams
  let keys := order.keys o.names
  let x0 := keys.map fun k => (Dict.get? (o.names.zip o.params) k).getD none
  let x ← Opt.bayesOptimize (fun x => valueOf (L.objective bessel l draws d (keys.zip x))) src x0 init nIter
  newLearner env L o.names o.bounds (keys.zip x)

/-- `MuyGPS.optimize_scale` — `gp/muygps.py:377-406`. A `nan` estimate is not modelled. -/
noncomputable def Learner.optimizeScale (bessel : Flt → ℝ → ℝ) (draws : List (List Nat)) (L : Learner) (pairwise nnTargets : Tensor ℝ) :
    Res Learner := do
  let Kin ← L.trainee.R.kernel.call bessel pairwise []
  let s ← scaleOptFn L.scaleKind L.trainee.R.gp draws Kin nnTargets []
  match s with
  | none => .error .notImplemented
  | some s =>
    if s ≤ 0 then .error .value
    else return ({ L with scale := s } : Learner).make

end MuyGPyS
