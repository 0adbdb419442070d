import Verif.Py.Tensor
import Mathlib.Algebra.BigOperators.Fin
import Mathlib.Analysis.SpecialFunctions.Sqrt

/-!
# Model of the difference tensors: `_src/gp/tensors/numpy.py`, `gp/muygps.py:405-551`
-/

namespace Py
namespace Tensor
variable {α β γ : Type _}

/-- NumPy accepts `-N ≤ i < N` on an axis of length `N` — `_src/gp/tensors/numpy.py:47-70`. -/
def validIndex (N : Nat) (i : Int) : Prop := -(N : Int) ≤ i ∧ i < N

instance (N : Nat) (i : Int) : Decidable (validIndex N i) := by unfold validIndex; infer_instance

/-- The position a valid index denotes: negative indices count from the end — `_src/gp/tensors/numpy.py:47-70`. -/
def wrapIndex (N : Nat) (i : Int) : Nat := if i < 0 then (i + N).toNat else i.toNat

/-- `data[idx]` for an integer array `idx` (advanced indexing on the first axis): shape
`idx.shape + data.shape[1:]`; `IndexError` when an index is out of range — `_src/gp/tensors/numpy.py:53-58,66-70`. -/
def take (data : Tensor α) (idx : Tensor Int) : Res (Tensor α) :=
  match data.shape with
  | [] => .error .index
  | N :: rest =>
    if ∀ k < idx.shape.prod, validIndex N (idx.flat k) then
      .ok ⟨idx.shape ++ rest,
        fun k => data.flat (wrapIndex N (idx.flat (k / rest.prod)) * rest.prod + k % rest.prod)⟩
    else .error .index

/-- Length of a broadcast axis — `_src/gp/tensors/numpy.py:72-87`. -/
def bcAxis (a b : Nat) : Option Nat :=
  if a = b then some a else if a = 1 then some b else if b = 1 then some a else none

/-- Broadcast shape of two arrays of equal rank — `_src/gp/tensors/numpy.py:72-87`. -/
def bcShape : List Nat → List Nat → Option (List Nat)
  | [], [] => some []
  | a :: s, b :: t => (bcAxis a b).bind fun c => (bcShape s t).map (c :: ·)
  | _, _ => none

/-- Position used along axes that are repeated by broadcasting — `_src/gp/tensors/numpy.py:72-87`. -/
def clipIdx (s idx : List Nat) : List Nat := List.zipWith (fun a i => if a = 1 then 0 else i) s idx

/-- Elementwise operation on two arrays of equal rank with NumPy broadcasting; `ValueError` when the
shapes do not broadcast. (Broadcasting of different ranks is not modelled; no modelled caller does
it.) — `_src/gp/tensors/numpy.py:72-87`. -/
def bop (f : α → β → γ) (a : Tensor α) (b : Tensor β) : Res (Tensor γ) :=
  match bcShape a.shape b.shape with
  | none => .error .value
  | some s => .ok (ofFn s fun idx => f (a.get (clipIdx a.shape idx)) (b.get (clipIdx b.shape idx)))

end Tensor
end Py

namespace MuyGPyS
open Py

/-- `_crosswise_tensor` — `_src/gp/tensors/numpy.py:47-58`. `data` and `nn_data` are vectors or
matrices of the same rank, `data_indices` a vector and `nn_indices` a matrix; other ranks are not
modelled (reported as `ValueError`). -/
def crosswiseTensor (data nnData : Tensor ℝ) (idx nn : Tensor Int) : Res (Tensor ℝ) :=
  match data.take idx with
  | .error e => .error e
  | .ok locs =>
    match nnData.take nn with
    | .error e => .error e
    | .ok pts =>
      match data.shape, locs.shape, pts.shape with
      | [_], [b], [b', n] =>
        -- locations[..., :, None, None] - points[..., None]
        Tensor.bop (· - ·) ⟨[b, 1, 1], locs.flat⟩ ⟨[b', n, 1], pts.flat⟩
      | [_, _], [b, f], [b', n, f'] =>
        -- locations[..., :, None, :] - points
        Tensor.bop (· - ·) ⟨[b, 1, f], locs.flat⟩ ⟨[b', n, f'], pts.flat⟩
      | _, _, _ => .error .value

/-- `_pairwise_tensor` — `_src/gp/tensors/numpy.py:61-69`. -/
def pairwiseTensor (data : Tensor ℝ) (nn : Tensor Int) : Res (Tensor ℝ) :=
  match data.take nn with
  | .error e => .error e
  | .ok pts =>
    match data.shape, pts.shape with
    | [_], [b, n] =>
      -- points[..., :, None, None] - points[..., None, :, None]
      Tensor.bop (· - ·) ⟨[b, n, 1, 1], pts.flat⟩ ⟨[b, 1, n, 1], pts.flat⟩
    | [_, _], [b, n, f] =>
      -- points[..., None, :] - points[..., None, :, :]
      Tensor.bop (· - ·) ⟨[b, n, 1, f], pts.flat⟩ ⟨[b, 1, n, f], pts.flat⟩
    | _, _ => .error .value

/-- `_F2` — `_src/gp/tensors/numpy.py:89-90`: `np.sum(diffs**2, axis=-1)`. -/
noncomputable def F2 (d : Tensor ℝ) : Res (Tensor ℝ) :=
  match d.shape.getLast? with
  | none => .error .value
  | some f => .ok ⟨d.shape.dropLast, fun k => ∑ c : Fin f, d.flat (k * f + c) ^ 2⟩

/-- `_l2` — `_src/gp/tensors/numpy.py:93-94`: `np.sqrt(_F2(diffs))`. -/
noncomputable def l2 (d : Tensor ℝ) : Res (Tensor ℝ) := do
  let s ← F2 d
  return s.map Real.sqrt

/-- The two metrics — `gp/deformation/metric.py:237-265`. -/
inductive Metric
  | l2
  | F2

/-- `metric(diffs)` — `gp/deformation/metric.py:68-69`. -/
noncomputable def Metric.apply : Metric → Tensor ℝ → Res (Tensor ℝ)
  | .l2 => MuyGPyS.l2
  | .F2 => MuyGPyS.F2

/-- `metric.apply_length_scale` — `gp/deformation/metric.py:241,264`. -/
noncomputable def Metric.scaleBy (m : Metric) (x len : ℝ) : ℝ :=
  match m with
  | .l2 => x / len
  | .F2 => x / len ^ 2

/-- Does the deformation work on distances (`Isotropy`) or on differences (`DifferenceIsotropy`,
`Anisotropy`)? — `gp/deformation/isotropy.py:92-270`, `gp/deformation/anisotropy.py:73-130`. -/
inductive DeformKind
  | isotropy
  | differenceIsotropy
  | anisotropy

/-- `deformation.crosswise_tensor` — `gp/deformation/isotropy.py:159-161,277-279`,
`gp/deformation/anisotropy.py:141-143`, `gp/deformation/metric.py:109-155`. -/
noncomputable def defCrosswise (k : DeformKind) (m : Metric) (data nnData : Tensor ℝ)
    (idx nn : Tensor Int) : Res (Tensor ℝ) := do
  let d ← crosswiseTensor data nnData idx nn
  match k with
  | .isotropy => m.apply d
  | _ => return d

/-- `deformation.pairwise_tensor` — `gp/deformation/isotropy.py:118,236`,
`gp/deformation/anisotropy.py:100`, `gp/deformation/metric.py:184-214`. -/
noncomputable def defPairwise (k : DeformKind) (m : Metric) (data : Tensor ℝ) (nn : Tensor Int) :
    Res (Tensor ℝ) := do
  let d ← pairwiseTensor data nn
  match k with
  | .isotropy => m.apply d
  | _ => return d

/-- `MuyGPS.make_predict_tensors` — `gp/muygps.py:462-475` (MPI off). -/
noncomputable def makePredictTensors (k : DeformKind) (m : Metric) (idx nn : Tensor Int)
    (testFeatures : Option (Tensor ℝ)) (trainFeatures trainTargets : Tensor ℝ) :
    Res (Tensor ℝ × Tensor ℝ × Tensor ℝ) := do
  let test := testFeatures.getD trainFeatures
  let cross ← defCrosswise k m test trainFeatures idx nn
  let pair ← defPairwise k m trainFeatures nn
  let nnTargets ← trainTargets.take nn
  return (cross, pair, nnTargets)

/-- `MuyGPS.make_train_tensors` — `gp/muygps.py:533-551` (MPI off). -/
noncomputable def makeTrainTensors (k : DeformKind) (m : Metric) (idx nn : Tensor Int)
    (trainFeatures trainTargets : Tensor ℝ) :
    Res (Tensor ℝ × Tensor ℝ × Tensor ℝ × Tensor ℝ) := do
  let cross ← defCrosswise k m trainFeatures trainFeatures idx nn
  let pair ← defPairwise k m trainFeatures nn
  let nnTargets ← trainTargets.take nn
  let targets ← trainTargets.take idx
  return (cross, pair, targets, nnTargets)

/-- `_make_heteroscedastic_tensor` — `_src/gp/tensors/numpy.py:11-15`, and `_batch_features_tensor` —
`_src/gp/tensors/numpy.py:40-44`: both are plain indexing. -/
def makeHeteroscedasticTensor (noise : Tensor ℝ) (nn : Tensor Int) : Res (Tensor ℝ) := noise.take nn

end MuyGPyS
