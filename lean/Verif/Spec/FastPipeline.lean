import Verif.Spec.MultiPipeline
import Verif.Model.FastPipeline

/-! # What the end-to-end fast posterior mean promises -/

namespace MuyGPyS
open Py

/-- Row `i` of `U` is training point `i` followed by its `nn_count - 1` nearest other training points. -/
def OwnNeighbourhoods (w : NNWrapper) (U : Tensor Int) : Prop :=
  U.shape = [w.N, w.nnCount] ∧
  ∀ i < w.N, ∃ l : List Nat, rowList U w.nnCount i = (i :: l).map Int.ofNat ∧ (i :: l).Nodup ∧
    Nearest (fun j => j < w.N ∧ j ≠ i) (fun j => w.dist (rowPt w.train w.f i) (rowPt w.train w.f j)) (w.nnCount - 1) l

/-- `i` is a closest training point of test point `q`. -/
def IsClosest (w : NNWrapper) (Q : Tensor ℝ) (q i : Nat) : Prop :=
  i < w.N ∧ ∀ j < w.N, w.dist (rowPt Q w.f q) (rowPt w.train w.f i) ≤ w.dist (rowPt Q w.f q) (rowPt w.train w.f j)

/-- The documented fast prediction of response `c` at `x`: the kriging mean from the neighbourhood of training point `i`. -/
noncomputable def fastDocumented (bs : Flt → ℝ → ℝ) (R : Regressor) (w : NNWrapper) (len : Fin w.f → ℝ) (U : Tensor Int)
    (Y : Tensor ℝ) (i c : Nat) (x : Fin w.f → ℝ) : ℝ :=
  Spec.krigingMean (nbrCov bs R.kernel len w.train w.N w.nnCount U i + R.gp.noise.mat w.nnCount i)
    (nbrCross bs R.kernel len w.train w.N w.nnCount U i x) (nbrTargets Y w.N w.nnCount U i c)

/-- A vector with entry `j ≥ 1` replaced by entry `j - 1`, entry 0 kept. -/
def shifted {n : Nat} (v : Fin n → ℝ) : Fin n → ℝ := fun j => v ⟨j - 1, by omega⟩

end MuyGPyS
