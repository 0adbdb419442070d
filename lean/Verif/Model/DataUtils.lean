import Verif.Model.Batch
import Verif.Model.Classify
import Verif.Model.Scale

/-!
# Model of the data helpers of `_test/utils.py`

`np.random.randn` and `np.random.choice(·, k, replace=False)` enter as the values they return.
-/

namespace MuyGPyS.Utils
open Py MuyGPyS

/-- A data dict with keys `"input"` and `"output"` — `_test/utils.py:114-150`. -/
structure Data where
  input : Tensor ℝ
  output : Tensor ℝ

/-- `t[l, :]`: `IndexError` for an array that has no second axis and for a row that does not exist. More than two axes are not modelled — `_test/utils.py:226-231,275-283`. -/
noncomputable def rowsOf (t : Tensor ℝ) (l : List Nat) : Res (Tensor ℝ) :=
  match t.shape with
  | [n, k] => if ∀ x ∈ l, x < n then .ok (selectRows t k l) else .error .index
  | _ => .error .index

/-- `_subsample` — `_test/utils.py:206-238`. -/
noncomputable def subsample (d : Data) (sampleCount : Int) (draw : List Nat) : Res Data :=
  match d.input.shape with
  | [] => .error .index
  | count :: _ => do
    let samples ← choice count sampleCount draw
    let x ← rowsOf d.input samples
    let y ← rowsOf d.output samples
    return ⟨x, y⟩

/-- `mm.argmax(data["output"], axis=1)` — `_test/utils.py:273`; `ValueError` for a matrix without columns or an array without second axis
(`AxisError` is a `ValueError`). -/
noncomputable def argmaxOf (t : Tensor ℝ) : Res (List Nat) :=
  match t.shape with
  | [n, r] => if r = 0 then .error .value else .ok (argmaxRows t n r)
  | _ => .error .value

/-- `_balanced_subsample` — `_test/utils.py:241-291`; `draws` are the positions drawn for each class. `int(sample_count / class_count)` truncates
towards zero (no rounding of the quotient modelled). -/
noncomputable def balancedSubsample (d : Data) (sampleCount : Int) (draws : List (List Nat)) : Res Data := do
  let labels ← argmaxOf d.output
  let classes := labels.toFinset.sort (· ≤ ·)
  if classes.length = 0 then .error .zeroDivision else
  let each := sampleCount.tdiv classes.length
  let parts ← classes.zipIdx.mapM fun ci => do
    let cands := (List.range labels.length).filter fun i => labels.getD i 0 = ci.1
    let pos ← choice cands.length (min (cands.length : Int) each) (draws.getD ci.2 [])
    return pos.map fun p => cands.getD p 0
  let x ← rowsOf d.input parts.flatten
  let y ← rowsOf d.output parts.flatten
  return ⟨x, y⟩

/-- `_normalize` — `_test/utils.py:294-305`: `X * sqrt(X.shape[1] / sum(X**2, axis=1))[:, None]`. `none` stands for `nan`: a row of zeros is
multiplied by the square root of `X.shape[1] / 0.0`. -/
noncomputable def normalize (X : Tensor ℝ) : Res (Tensor (Option ℝ)) :=
  match X.shape with
  | [n, f] => .ok (Tensor.ofFn [n, f] fun idx =>
      let ss := ∑ c ∈ Finset.range f, X.get [idx.getD 0 0, c] ^ 2
      if ss = 0 then none else some (X.get idx * Real.sqrt ((f : ℝ) / ss)))
  | _ => .error .index

/-- `_make_gaussian_dict` — `_test/utils.py:114-153`, the draws of `np.random.randn` being `Z` for the features and `W` for the responses:
the data and the labels. -/
noncomputable def gaussianDict (Z W : Tensor ℝ) (categorical : Bool) : Res (Data × List Nat) := do
  let labels ← argmaxOf W
  let r := W.shape.getD 1 0
  let out := if categorical then
      Tensor.ofFn [labels.length, r] fun idx => (if labels.getD (idx.getD 0 0) 0 = idx.getD 1 0 then 1 else 0) - 1 / (r : ℝ)
    else W
  return (⟨Z, out⟩, labels)

/-- One item of `_get_scale` — `_test/utils.py:367-372`: `Y_0 @ solve(Kin[j] + noise_variance * eye(nn_count), Y_0)`. -/
noncomputable def scaleAt (Kin : Tensor ℝ) (n : Nat) (Y : Tensor ℝ) (noise : ℝ) (j : Nat) : Res ℝ := do
  let A := Tensor.ofFn [n, n] fun idx => Kin.get [j, idx.getD 0 0, idx.getD 1 0] + noise * (if idx.getD 0 0 = idx.getD 1 0 then 1 else 0)
  let y := Tensor.ofFn [n, 1] fun idx => Y.get [j, idx.getD 0 0, 0]
  let F ← Tensor.solve [] n 1 A y
  return ∑ i ∈ Finset.range n, y.get [i, 0] * F.get [i, 0]

/-- `_get_scale_series` — `_test/utils.py:308-329`, for `Kin` of shape `(batch, nn, nn)` with the batch and neighbour count of the targets. -/
noncomputable def scaleSeries (Kin Y : Tensor ℝ) (noise : ℝ) : Res (List ℝ) :=
  match Y.shape with
  | [b, n, _] => do
    let s ← (List.range b).mapM (scaleAt Kin n Y noise)
    return s.map fun x => x / n
  | _ => .error .value

end MuyGPyS.Utils
