import Verif.Model.Mpi
import Verif.Model.Loss

/-!
# Model of the MPI losses: `_src/optimize/loss/mpi.py`

Each function is called by all ranks (SPMD) on their local chunks. The argument is the list of the
ranks' local arguments; the result is the value every rank receives from `allreduce`. If some rank
raises before reaching `allreduce`, the collective never completes; this is modelled as the error of
that rank.
-/

namespace MuyGPyS.Mpi
open Py Loss

/-- `world.allreduce(local_fn(chunk), op=SUM)` executed by every rank — `_src/optimize/loss/mpi.py:42-44`. -/
noncomputable def reduceLocal {α : Type} (localFn : α → Res ℝ) (ranks : List α) : Res ℝ := do
  let ls ← ranks.mapM localFn
  pure (allreduceSum ls)

/-- `_mse_fn` — `_src/optimize/loss/mpi.py:22-26`. A rank holds rows of predictions and targets; the
denominator sums `np.prod(predictions.shape)` over the ranks. -/
noncomputable def mseMpi (ranks : List (List (List ℝ) × List (List ℝ))) : Res ℝ := do
  let num ← reduceLocal (fun c => mseUnnormalized c.1.flatten c.2.flatten) ranks
  let den ← reduceLocal (fun c => .ok (c.1.flatten.length : ℝ)) ranks
  pure (num / den)

/-- `_cross_entropy_fn` — `_src/optimize/loss/mpi.py:38-45`. -/
noncomputable def crossEntropyMpi (ε : ℝ) (ranks : List (List (List ℝ) × List (List ℝ))) : Res ℝ :=
  reduceLocal (fun c => crossEntropy ε (c.1.zip c.2)) ranks

/-- `_lool_fn` — `_src/optimize/loss/mpi.py:48-59`. -/
noncomputable def loolMpi (scale : ℝ) (ranks : List (List ℝ × List ℝ × List ℝ)) : Res ℝ :=
  reduceLocal (fun c => lool c.1 c.2.1 c.2.2 scale) ranks

/-- `_lool_fn_unscaled` — `_src/optimize/loss/mpi.py:62-72`: the body calls *itself* (the numpy
function is not imported). `depth` is the remaining Python recursion depth. -/
noncomputable def loolUnscaledMpi : Nat → List ℝ × List ℝ × List ℝ → Res ℝ
  | 0, _ => .error .recursion
  | depth + 1, c => do
    let localLikelihoods ← loolUnscaledMpi depth c
    pure (allreduceSum [localLikelihoods])

/-- `_pseudo_huber_fn` — `_src/optimize/loss/mpi.py:75-85`. -/
noncomputable def pseudoHuberMpi (δ : ℝ) (ranks : List (List (List ℝ) × List (List ℝ))) : Res ℝ :=
  reduceLocal (fun c => pseudoHuber c.1.flatten c.2.flatten δ) ranks

/-- `_looph_fn` — `_src/optimize/loss/mpi.py:88-105`. -/
noncomputable def loophMpi (scale δ : ℝ) (ranks : List (List ℝ × List ℝ × List ℝ)) : Res ℝ :=
  reduceLocal (fun c => looph c.1 c.2.1 c.2.2 scale δ) ranks

end MuyGPyS.Mpi
