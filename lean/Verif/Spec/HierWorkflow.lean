import Verif.Model.HierWorkflow
import Verif.Spec.Hierarchical
import Verif.Spec.Objective
import Verif.Spec.Pipeline

/-! # What a nonstationary model promises: at every point, the stationary model with the length scale of that point -/

namespace MuyGPyS
open Py Matrix

/-- The ordinary model with the same kernel family, noise and scale and the constant length scale `ℓ`. -/
noncomputable def HierRegressor.stationary (R : HierRegressor) (ℓ : ℝ) : Regressor :=
  ⟨⟨.isotropy R.kernel.metric ⟨Flt.fin ℓ, Flt.fin 0, Flt.fin 0, true⟩, R.kernel.smoothness, R.kernel.fn⟩, R.gp⟩

/-- The length scale of a point: the kriging mean there from the knots `X` with values `v`, under the higher-level kernel `k`
and the noise `ε`. -/
noncomputable def knotLength (bessel : Flt → ℝ → ℝ) (k : KernelObj) {f : Nat} (len : Fin f → ℝ) (X : Tensor ℝ) (n : Nat)
    (ε : ℝ) (v : Fin n → ℝ) (q : Fin f → ℝ) : ℝ :=
  Spec.krigingMean (knotCov bessel k len X n + ε • (1 : Matrix (Fin n) (Fin n) ℝ)) (knotCross bessel k len X n q) v

/-- The kernel holding the trial values: knot `i` has the value supplied as `length_scale<i>`, if any, the smoothness the one
supplied as `smoothness`. -/
noncomputable def HierKernel.overridden (K : HierKernel) (kw : Dict Flt) : HierKernel :=
  HierKernel.create K.metric { K.length with params := overrideFrom kw 0 K.length.params }
    (K.smoothness.map fun p => p.overridden kw "smoothness")

/-- Trial keywords a hierarchical kernel handles properly: no reserved names, smoothness only if it is free, knot values for
the first knots, in order. -/
def HierKernel.Accepts (K : HierKernel) (kw : Dict Flt) : Prop :=
  Unreserved kw ∧
  (∀ p, K.smoothness = some p → p.fixed = false ∨ Dict.get? kw "smoothness" = none) ∧
  (kw.map Prod.fst).Nodup ∧ ∃ n ≤ K.length.params.length,
    (kw.filter fun a => startsLS a.1).map Prod.fst = (List.range n).map fun i => "length_scale" ++ toString i

/-- Minus the mean-only loss of the predictions of a nonstationary model. -/
noncomputable def hierPromised (bessel : Flt → ℝ → ℝ) (R : HierRegressor) (l : LossKind) (mask : Option (List Nat))
    (pairwise crosswise nnTargets targets features : Tensor ℝ) : Res (Option ℝ) := do
  let Kin ← R.kernel.call bessel pairwise (some features) []
  let Kcross ← R.kernel.call bessel crosswise (some features) []
  let μ ← R.gp.posteriorMean Kin Kcross nnTargets
  let μ ← pickOutputs mask μ
  let x ← l.ofMeans μ targets
  return some (-x)

end MuyGPyS
