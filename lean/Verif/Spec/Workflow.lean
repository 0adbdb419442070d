import Verif.Model.Workflow
import Verif.Spec.Neighbors
import Verif.Spec.Kernel
import Verif.Spec.Tensors
import Verif.Spec.Kriging
import Verif.Props.Covariance

/-! # What a prediction workflow promises: kriging from the listed neighbours -/

namespace MuyGPyS
open Py

/-- The prior covariance (at unit scale) of two points under a kernel with length scales `len`: the
kernel function of the distance between the points measured in units of the length scales. -/
noncomputable def KernelObj.covFn (bessel : Flt → ℝ → ℝ) (k : KernelObj) {f : Nat} (len : Fin f → ℝ)
    (x y : Fin f → ℝ) : ℝ :=
  KFn.value bessel ((k.smoothness.map Param.val).getD none) k.fn
    (distOf k.deform.metric (fun c => x c / len c) (fun c => y c / len c))

/-- Point `i` of a table with `f` features. -/
def pt (X : Tensor ℝ) (f i : Nat) : Fin f → ℝ := fun c => feature X i c

/-- Covariance matrix of the `n` training points listed in row `p` of `nn` (`N` training points). -/
noncomputable def nbrCov (bessel : Flt → ℝ → ℝ) (k : KernelObj) {f : Nat} (len : Fin f → ℝ) (X : Tensor ℝ)
    (N n : Nat) (nn : Tensor Int) (p : Nat) : Matrix (Fin n) (Fin n) ℝ :=
  fun i j => k.covFn bessel len (pt X f (pointOf N (nn.get [p, i]))) (pt X f (pointOf N (nn.get [p, j])))

/-- Covariances between a point and the `n` training points listed in row `p` of `nn`. -/
noncomputable def nbrCross (bessel : Flt → ℝ → ℝ) (k : KernelObj) {f : Nat} (len : Fin f → ℝ) (X : Tensor ℝ)
    (N n : Nat) (nn : Tensor Int) (p : Nat) (q : Fin f → ℝ) : Fin n → ℝ :=
  fun j => k.covFn bessel len q (pt X f (pointOf N (nn.get [p, j])))

/-- Response `c` of the `n` training points listed in row `p` of `nn`. -/
def nbrTargets (Y : Tensor ℝ) (N n : Nat) (nn : Tensor Int) (p c : Nat) : Fin n → ℝ :=
  fun j => feature Y (pointOf N (nn.get [p, j])) c

end MuyGPyS
