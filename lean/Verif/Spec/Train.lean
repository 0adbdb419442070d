import Verif.Model.Train
import Verif.Spec.Hyper
import Verif.Spec.Objective

/-! # What users rely on about training -/

namespace MuyGPyS
open Py

/-- The score of a model on training data: minus its loss (after estimating its variance scale, for the losses that use
variances). -/
noncomputable def Learner.score (bessel : Flt → ℝ → ℝ) (L : Learner) (l : LossKind) (draws : List (List Nat)) (d : TrainData) :
    Res (Option ℝ) :=
  if l.raw then promisedRaw bessel L.trainee l none d.pairwise d.crosswise d.nnTargets d.targets
  else promisedVar bessel L.trainee l draws d.pairwise d.crosswise d.nnTargets d.targets

/-- The names of the hyperparameters that are to be optimised. -/
def Learner.freeNames (L : Learner) : List String := (L.gp.params.filter fun np => !np.2.fixed).map Prod.fst

/-- A value within the bounds of a parameter. -/
def Param.Allows (p : Param) (v : Flt) : Prop :=
  ∃ x l u : EReal, v = some x ∧ p.lb = some l ∧ p.ub = some u ∧ l ≤ x ∧ x ≤ u

/-- All free hyperparameters lie within their bounds. -/
def Learner.InBounds (L : Learner) : Prop := ∀ np ∈ L.gp.params, np.2.fixed = false → np.2.Allows np.2.val

/-- An answer of an optimiser: exactly the free hyperparameters, in any order, with values within their bounds. -/
def Learner.Feasible (L : Learner) (kw : Dict Flt) : Prop :=
  (kw.map Prod.fst).Perm L.freeNames ∧
  ∀ np ∈ L.gp.params, np.2.fixed = false → ∃ v, Dict.get? kw np.1 = some v ∧ np.2.Allows v

/-- No anisotropic length scale is fixed while a later one is free. -/
def Learner.FreeFirst (L : Learner) : Prop :=
  ∀ ps, L.kernel.ls = .vector ps → ∃ n ≤ ps.length, ∀ (i : Nat) p, ps[i]? = some p → (p.fixed = false ↔ i < n)

/-- At most ten anisotropic length scales. -/
def Learner.AtMostTen (L : Learner) : Prop := ∀ ps, L.kernel.ls = .vector ps → ps.length ≤ 10

/-- A consistent model, as every constructor and optimiser leaves it: the functions bound by `_make` are up to date. -/
def Learner.Made (L : Learner) : Prop := L.make = L

/-- Two models of the same kind: they differ in hyperparameter values only. -/
def Learner.SameKind (L L' : Learner) : Prop :=
  L'.metric = L.metric ∧ L'.difference = L.difference ∧ L'.scaleKind = L.scaleKind

/-- The loss can be used with this model: a prediction-only loss, or a variance loss (with one response per point), where a
variance scale estimated from data is not combined with an optimised noise level (C40) and not estimated from random samples, which differ between
evaluations (C108). -/
def Learner.LossFits (L : Learner) (l : LossKind) (d : TrainData) : Prop :=
  l.raw = true ∨ l ≠ .loolUnscaled ∧ d.targets.shape.length = 1 ∧
    (L.scaleKind = .fixed ∨ (∃ m, L.scaleKind = .analytic m) ∧ "noise" ∉ L.freeNames)

end MuyGPyS
