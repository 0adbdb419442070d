import Verif.Spec.Train
import Verif.Spec.Pipeline
import Verif.Spec.Covariance

/-! # What an optimiser is given: a function of the free hyperparameters on a box -/

namespace MuyGPyS
open Py

/-- The free hyperparameters with the values `x`, in the order of the model, as the objective receives them. -/
noncomputable def Learner.point (L : Learner) (x : Fin L.freeNames.length → ℝ) : List Flt := List.ofFn fun i => Flt.fin (x i)

/-- The search box: the points all of whose coordinates are within the bounds of the hyperparameters. -/
def Learner.searchBox (L : Learner) : Set (Fin L.freeNames.length → ℝ) := {x | L.Feasible (L.freeNames.zip (L.point x))}

/-- A hyperparameter stays in the set `S`: its value if it is fixed, all values between its (finite) bounds otherwise. -/
def Param.Within (p : Param) (S : Set ℝ) : Prop :=
  if p.fixed then ∃ v ∈ S, p.val = Flt.fin v
  else ∃ a b : ℝ, p.lb = Flt.fin a ∧ p.ub = Flt.fin b ∧ Set.Icc a b ⊆ S

/-- The search box contains sensible models only: positive length scales (one per feature, if there are several), and a positive noise, or a
non-negative one if the training points are pairwise different (for the index, too). -/
structure Learner.Sensible (L : Learner) (w : NNWrapper) : Prop where
  scalar : ∀ p, L.kernel.ls = .scalar p → p.Within (Set.Ioi 0)
  vector : ∀ ps, L.kernel.ls = .vector ps → ps.length = w.f ∧ ∀ p ∈ ps, p.Within (Set.Ioi 0)
  noise : ∃ p, L.noise = .homoscedastic p ∧
    (p.Within (Set.Ioi 0) ∨ (p.Within (Set.Ici 0) ∧ w.Separated ∧ DistinctRows w.train w.N w.f))

/-- The variance scale is known on the training data: fixed, or estimated from neighbour responses that are not all zero. -/
def Learner.ScaleKnown (L : Learner) (d : TrainData) : Prop :=
  (L.scaleKind = .fixed ∧ 0 < L.scale) ∨
  (∃ m, L.scaleKind = .analytic m) ∧ ∃ y ∈ entries d.nnTargets, y ≠ 0

/-- The losses meant here: of the means alone, or of means and variances with a known variance scale. -/
def Learner.SmoothLoss (L : Learner) (d : TrainData) : LossKind → Prop
  | .mse => True
  | .pseudoHuber δ => 0 < δ
  | .lool => L.ScaleKnown d
  | .looph δ => 0 < δ ∧ L.ScaleKnown d
  | _ => False

end MuyGPyS
