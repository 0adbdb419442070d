import Verif.Model.Objective
import Verif.Spec.Kernel

/-! # What the optimisation objective promises: minus the loss of the trial model -/

namespace MuyGPyS
open Py

/-- The noise model with the trial noise level, if one is given. -/
noncomputable def Noise.trial (kw : Dict Flt) : Noise → Noise
  | .homoscedastic v => .homoscedastic (((Dict.get? kw "noise").map Flt.toReal).getD v)
  | .shear33 v => .shear33 (((Dict.get? kw "noise").map Flt.toReal).getD v)
  | ν => ν

/-- The model holding the trial hyperparameters. -/
noncomputable def Trainee.trial (kw : Dict Flt) (T : Trainee) : Trainee :=
  ⟨⟨(T.R.kernel.overridden kw).make, { T.R.gp with noise := T.R.gp.noise.trial kw }⟩, T.scaleKind⟩

/-- The loss of means alone: mean squared error, pseudo-Huber loss or cross entropy of all the predictions. -/
noncomputable def LossKind.ofMeans (l : LossKind) (μ targ : Tensor ℝ) : Res ℝ :=
  if μ.shape = targ.shape then
    match l with
    | .mse => Loss.mse (entries μ) (entries targ)
    | .pseudoHuber δ => Loss.pseudoHuber (entries μ) (entries targ) δ
    | .crossEntropy ε =>
      match μ.shape with
      | [b, r] => Loss.crossEntropy ε ((List.range b).map fun i =>
          ((List.range r).map fun j => μ.get [i, j], (List.range r).map fun j => targ.get [i, j]))
      | _ => .error .value
    | _ => .error .type
  else .error .value

/-- The variance scale the model reports after `optimize_scale` on these covariances and targets: its current
scale if that is fixed, otherwise the (down-sampled) analytic estimate with its own noise. -/
noncomputable def Trainee.promisedScale (T : Trainee) (draws : List (List Nat)) (Kin nnTargets : Tensor ℝ) :
    Res (Option ℝ) :=
  match T.scaleKind with
  | .fixed => .ok (some T.R.gp.scale)
  | .analytic n => (analyticOpt T.R.gp.noise n Kin nnTargets).map some
  | .downSample d => downSampleOpt T.R.gp.noise d draws Kin nnTargets

/-- The predictions of the selected outputs only (all of them without a selection): selecting the outputs
`m` of `(count, outputs)` predictions gives in row `i`, column `j` the prediction of output `m[j]`;
selecting an output that does not exist is an error. -/
def pickOutputs (mask : Option (List Nat)) (μ : Tensor ℝ) : Res (Tensor ℝ) :=
  match mask, μ.shape with
  | none, _ => .ok μ
  | some m, [count, outputs] =>
    if ∃ c ∈ m, outputs ≤ c then .error .index
    else .ok (Tensor.ofFn [count, m.length] fun i => μ.get [i.getD 0 0, m.getD (i.getD 1 0) 0])
  | some _, _ => .error .index

/-- Minus the mean-only loss of the predictions of a model. -/
noncomputable def promisedRaw (bessel : Flt → ℝ → ℝ) (T : Trainee) (l : LossKind) (mask : Option (List Nat))
    (pairwise crosswise nnTargets targets : Tensor ℝ) : Res (Option ℝ) := do
  let Kin ← T.R.kernel.call bessel pairwise []
  let Kcross ← T.R.kernel.call bessel crosswise []
  let μ ← T.R.gp.posteriorMean Kin Kcross nnTargets
  let μ ← pickOutputs mask μ
  let x ← l.ofMeans μ targets
  return some (-x)

/-- The contribution of one predicted response with its variance: minus twice the Gaussian log likelihood up to a constant
for `lool`, its Huberised variant for `looph`. -/
noncomputable def LossKind.term : LossKind → Option (ℝ → ℝ → ℝ → ℝ)
  | .lool => some fun μ t v => (μ - t) ^ 2 / v + Real.log v
  | .looph δ => some fun μ t v => 2 * δ ^ 2 * (Real.sqrt (1 + (t - μ) ^ 2 / (δ ^ 2 * v)) - 1) + Real.log v
  | _ => none

/-- The loss of means and (scaled) variances: the sum of the contributions of the points, or, for several responses per
point (two axes), of the points and their responses, every response of a point having the variance of the point. -/
noncomputable def LossKind.ofVariances (l : LossKind) (μ targ var : Tensor ℝ) : Res ℝ :=
  match l.term with
  | none => .error .type
  | some term =>
    match μ.shape, var.shape with
    | [n], [n'] =>
      if targ.shape = [n] ∧ n' = n then .ok (∑ i ∈ Finset.range n, term (μ.get [i]) (targ.get [i]) (var.get [i]))
      else .error .value
    | [n, r], [n'] =>
      if targ.shape = [n, r] ∧ n' = n then
        .ok (∑ i ∈ Finset.range n, ∑ c ∈ Finset.range r, term (μ.get [i, c]) (targ.get [i, c]) (var.get [i]))
      else .error .value
    | _, _ => .error .value

/-- Minus the variance loss of the predictions of a model after it has estimated its variance scale
(`optimize_scale`), the posterior variances being those reported with that scale. -/
noncomputable def promisedVar (bessel : Flt → ℝ → ℝ) (T : Trainee) (l : LossKind) (draws : List (List Nat))
    (pairwise crosswise nnTargets targets : Tensor ℝ) : Res (Option ℝ) := do
  let Kin ← T.R.kernel.call bessel pairwise []
  let Kcross ← T.R.kernel.call bessel crosswise []
  let μ ← T.R.gp.posteriorMean Kin Kcross nnTargets
  let σ ← T.promisedScale draws Kin nnTargets
  match σ with
  | some σ => do
    let v ← ({ T.R.gp with scale := σ, boundScale := σ } : MuyGPS).posteriorVariance Kin Kcross
    let x ← l.ofVariances μ targets v
    return some (-x)
  | none => return none

/-- The trial keywords a kernel handles properly: no reserved names; smoothness only if it is free; for
an anisotropic kernel, overridden length scales are the first ones, in order (see C11). -/
def KernelObj.Accepts (k : KernelObj) (kw : Dict Flt) : Prop :=
  Unreserved kw ∧
  (∀ p, k.smoothness = some p → p.fixed = false ∨ Dict.get? kw "smoothness" = none) ∧
  match k.deform with
  | .anisotropy _ ps => (kw.map Prod.fst).Nodup ∧ ∃ n ≤ ps.length,
      (kw.filter fun a => startsLS a.1).map Prod.fst = (List.range n).map fun i => "length_scale" ++ toString i
  | _ => True

end MuyGPyS
