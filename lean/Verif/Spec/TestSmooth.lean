import Verif.Spec.Continuity
import Mathlib.Analysis.Calculus.ContDiff.Defs

/-! # How smooth the documented kernels are -/

namespace MuyGPyS
open scoped ContDiff

/-- How often the kernel function of two points is continuously differentiable in one of them, also where the points coincide: RBF and its
limit infinitely often, Matérn 5/2 twice, Matérn 3/2 once, Matérn 1/2 only continuous. -/
def KFn.order : KFn → WithTop ℕ∞
  | .rbf => ∞
  | .minf => ∞
  | .m25 => 2
  | .m15 => 1
  | .m05 => 0
  | .gen => 0

end MuyGPyS
