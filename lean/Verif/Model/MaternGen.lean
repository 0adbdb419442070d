import Verif.Model.Kernel
import Verif.Spec.Bessel

/-!
# Model of the general Matérn implementation: `_src/gp/kernels/numpy.py:34-43`

`scipy.special.gamma` is the gamma function and `scipy.special.kv` the modified Bessel function of the second kind (`besselK`);
rounding is not modelled.
-/

namespace MuyGPyS
open Py

/-- `np.finfo(float).eps` — `_src/gp/kernels/numpy.py:38`. -/
noncomputable def machEps : ℝ := 2 ^ (-52 : ℤ)

open Classical in
/-- `_matern_gen_fn` on one entry — `_src/gp/kernels/numpy.py:34-43`: a distance that is exactly zero is replaced by `eps`.
For smoothness values that are not positive and finite nothing is claimed. -/
noncomputable def maternGen (s : Flt) (d : ℝ) : ℝ :=
  let K := if d = 0 then d + machEps else d
  let tmp := Real.sqrt (2 * s.toReal) * K
  (2 ^ (1 - s.toReal) / Real.Gamma s.toReal) * tmp ^ s.toReal * besselK s.toReal tmp

end MuyGPyS
