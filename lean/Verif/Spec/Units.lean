import Verif.Model.Pipeline

/-! # What it means to measure the responses in another unit -/

namespace MuyGPyS
open Py

/-- The same quantities in another unit: every number is multiplied by `c`. -/
noncomputable def inUnits (c : ℝ) (Y : Tensor ℝ) : Tensor ℝ := ⟨Y.shape, fun k => c * Y.flat k⟩

/-- The training data with the responses in another unit. -/
noncomputable def TrainData.inUnits (c : ℝ) (d : TrainData) : TrainData :=
  ⟨d.crosswise, d.pairwise, MuyGPyS.inUnits c d.targets, MuyGPyS.inUnits c d.nnTargets⟩

/-- The model with its variance scale — a variance, measured in squared units — in the other unit. -/
noncomputable def Learner.inUnits (c : ℝ) (L : Learner) : Learner :=
  { L with scale := c ^ 2 * L.scale, boundScale := c ^ 2 * L.boundScale }

/-- The loss with its boundary in the other unit. Only the pseudo-Huber boundary is measured in units of the responses; the
boundary of `looph` is measured in standard deviations. -/
noncomputable def LossKind.inUnits (c : ℝ) : LossKind → LossKind
  | .pseudoHuber δ => .pseudoHuber (|c| * δ)
  | l => l

/-- The regression losses. -/
def LossKind.Regression : LossKind → Prop
  | .mse | .pseudoHuber _ | .lool | .looph _ => True
  | _ => False

/-- The number by which an objective value is multiplied when the responses are measured in the other unit. -/
noncomputable def LossKind.unitFactor (l : LossKind) (c : ℝ) : ℝ := if l.raw then c ^ 2 else 1

/-- The number by which it is shifted. -/
noncomputable def LossKind.unitShift (l : LossKind) (c : ℝ) (n : Nat) : ℝ := if l.raw then 0 else -(n * Real.log (c ^ 2))

/-- The scale is estimated by the documented formula or is fixed: not by `AnalyticScale(iteration_count > 1)`. -/
def ScaleKind.Documented : ScaleKind → Prop
  | .analytic n => n ≤ 1
  | _ => True

/-- The trial hyperparameters `kw` give a non-zero variance scale and non-zero variances at the batch points (a zero makes the
likelihood losses infinite). -/
def Learner.Uncertain (bessel : Flt → ℝ → ℝ) (L : Learner) (draws : List (List Nat)) (d : TrainData) (kw : Dict Flt) : Prop :=
  ∀ Kin Kcross, L.trainee.R.kernel.optFn bessel d.pairwise (("batch_features", none) :: kw) = .ok Kin →
    L.trainee.R.kernel.optFn bessel d.crosswise (("batch_features", none) :: kw) = .ok Kcross →
    (∀ s, scaleOptFn L.scaleKind L.trainee.R.gp draws Kin d.nnTargets kw = .ok (some s) → s ≠ 0) ∧
    ∀ V, L.trainee.R.gp.optVariance Kin Kcross ((Dict.get? kw "noise").map Flt.toReal) = .ok V → ∀ i < V.shape.prod, V.flat i ≠ 0

/-- Proposals that do not change when all the values seen so far are multiplied by a positive number and shifted: an optimiser that
standardises the values it sees. -/
def Opt.Source.Standardised {P : Type} (src : Opt.Source P) : Prop :=
  ∀ a b : ℝ, 0 < a → ∀ s : List (P × ℝ), src.suggest (s.map fun e => (e.1, a * e.2 + b)) = src.suggest s

/-- The point a Bayesian optimisation of the model starts from: its current hyperparameters, in the order of the keys. -/
def OptLists.start (order : KeyOrder) (o : OptLists) : List Flt :=
  (order.keys o.names).map fun k => (Dict.get? (o.names.zip o.params) k).getD none

end MuyGPyS
