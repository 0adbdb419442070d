import Verif.Py.Basic
import Mathlib.Analysis.SpecialFunctions.Log.Basic
import Mathlib.Analysis.SpecialFunctions.Sqrt
import Mathlib.LinearAlgebra.Matrix.NonsingularInverse
import Mathlib.Data.Real.Sign

/-!
# Model of the loss functions: `_src/optimize/loss/numpy.py`, `torch.py`, `jax.py`

Arrays enter the elementwise losses as the list of their entries (row-major). Arguments are given
as lists of equal length; unequal lengths raise `ValueError` (NumPy would broadcast a length-one
axis; not modelled). Arithmetic is over the reals.
-/

namespace MuyGPyS.Loss
open Py

/-- elementwise combination of two arrays of the same shape — `_src/optimize/loss/numpy.py:22-27`. -/
def zip2 (f : ℝ → ℝ → ℝ) (a b : List ℝ) : Res (List ℝ) :=
  if a.length = b.length then .ok (List.zipWith f a b) else .error .value

/-- `_mse_fn_unnormalized` — `_src/optimize/loss/numpy.py:22-25`. -/
noncomputable def mseUnnormalized (predictions targets : List ℝ) : Res ℝ := do
  let d ← zip2 (fun p t => (p - t) ^ 2) predictions targets
  pure d.sum

/-- `_mse_fn` — `_src/optimize/loss/numpy.py:28-31`: divided by the number of entries
(for an empty array NumPy returns `nan`, the model 0). -/
noncomputable def mse (predictions targets : List ℝ) : Res ℝ := do
  let s ← mseUnnormalized predictions targets
  pure (s / predictions.length)

/-- `_pseudo_huber_fn` — `_src/optimize/loss/numpy.py:64-72`. -/
noncomputable def pseudoHuber (predictions targets : List ℝ) (δ : ℝ) : Res ℝ := do
  let d ← zip2 (fun p t => Real.sqrt (1 + ((t - p) / δ) ^ 2) - 1) predictions targets
  pure (δ ^ 2 * d.sum)

/-- One entry of the 1-D branch of `_lool_fn_unscaled` — `_src/optimize/loss/numpy.py:40-44`. -/
noncomputable def loolTerm (p t v : ℝ) : ℝ := (p - t) ^ 2 / v + Real.log v

/-- `_lool_fn_unscaled`, 1-D variances — `_src/optimize/loss/numpy.py:34-44`. -/
noncomputable def loolUnscaled (predictions targets variances : List ℝ) : Res ℝ :=
  if predictions.length = targets.length ∧ targets.length = variances.length then
    .ok (List.zipWith (fun pt v => loolTerm pt.1 pt.2 v) (predictions.zip targets) variances).sum
  else .error .value

/-- `_lool_fn`, 1-D variances — `_src/optimize/loss/numpy.py:54-61`. -/
noncomputable def lool (predictions targets variances : List ℝ) (scale : ℝ) : Res ℝ :=
  loolUnscaled predictions targets (variances.map fun v => scale * v)

/-- One batch element of the multi-output branch of `_lool_fn_unscaled`: residual and covariance — `_src/optimize/loss/numpy.py:46-51`. -/
abbrev Item (r : Nat) := (Fin r → ℝ) × Matrix (Fin r) (Fin r) ℝ

open Classical in
/-- `_lool_fn_unscaled`, `(b, r, r)` variances — `_src/optimize/loss/numpy.py:45-51`.
`np.linalg.slogdet` returns the *pair* `(sign, logabsdet)`; adding it to the `(b,)` array of
quadratic forms broadcasts to a `(2, b)` array, which is then summed. -/
noncomputable def loolUnscaledMulti {r : Nat} (items : List (Item r)) : Res ℝ :=
  if ∀ it ∈ items, it.2.det ≠ 0 then
    let quad := items.map fun it => dotProduct it.1 (it.2⁻¹.mulVec it.1)
    let sign := items.map fun it => Real.sign it.2.det
    let logabsdet := items.map fun it => Real.log |it.2.det|
    .ok ((List.zipWith (· + ·) quad sign).sum + (List.zipWith (· + ·) quad logabsdet).sum)
  else .error .linAlg

/-- `_lool_fn` on `(b, r, r)` variances — `_src/optimize/loss/numpy.py:54-61`. -/
noncomputable def loolMulti {r : Nat} (items : List (Item r)) (scale : ℝ) : Res ℝ :=
  loolUnscaledMulti (items.map fun it => (it.1, scale • it.2))

/-- One entry of `_looph_fn_unscaled` — `_src/optimize/loss/numpy.py:84-98`. -/
noncomputable def loophTerm (p t v δ : ℝ) : ℝ :=
  2 * δ ^ 2 * (Real.sqrt (1 + (t - p) ^ 2 / (δ ^ 2 * v)) - 1) + Real.log v

/-- `_looph_fn_unscaled` — `_src/optimize/loss/numpy.py:75-100` (1-D variances). -/
noncomputable def loophUnscaled (predictions targets variances : List ℝ) (δ : ℝ) : Res ℝ :=
  if predictions.length = targets.length ∧ targets.length = variances.length then
    .ok (List.zipWith (fun pt v => loophTerm pt.1 pt.2 v δ) (predictions.zip targets) variances).sum
  else .error .value

/-- `_looph_fn` — `_src/optimize/loss/numpy.py:103-117`. -/
noncomputable def looph (predictions targets variances : List ℝ) (scale δ : ℝ) : Res ℝ :=
  loophUnscaled predictions targets (variances.map fun v => scale * v) δ

/-! ### cross entropy -/

/-- `scipy.special.softmax` of one row (mathematically; the implementation shifts by the maximum) — `_src/optimize/loss/numpy.py:16`. -/
noncomputable def softmax (row : List ℝ) : List ℝ :=
  row.map fun x => Real.exp x / (row.map Real.exp).sum

/-- `np.where(targets > 0.0, 1.0, 0.0)` — `_src/optimize/loss/numpy.py:15`. -/
noncomputable def oneHot (row : List ℝ) : List ℝ := row.map fun t => if 0 < t then 1 else 0

/-- `np.clip(p, eps, 1 - eps)` — `_src/optimize/loss/numpy.py:17-19`, `_src/optimize/loss/jax.py:39`. -/
noncomputable def clip (ε p : ℝ) : ℝ := min (max p ε) (1 - ε)

/-- one sample of `sklearn.metrics.log_loss(y, p, normalize=False)` on indicator labels:
probabilities clipped to `[ε, 1 - ε]`, then `-Σ y log p` — `_src/optimize/loss/numpy.py:17-19`. -/
noncomputable def logLossRow (ε : ℝ) (y p : List ℝ) : ℝ :=
  -(List.zipWith (fun y p => y * Real.log (clip ε p)) y p).sum

/-- `_cross_entropy_fn` (numpy) — `_src/optimize/loss/numpy.py:12-19`, on the rows
(`predictions[i]`, `targets[i]`) of the batch. `ε` is the clipping constant of scikit-learn (the machine
epsilon). An empty batch is rejected by scikit-learn. -/
noncomputable def crossEntropy (ε : ℝ) (rows : List (List ℝ × List ℝ)) : Res ℝ :=
  if rows = [] then .error .value
  else if ∀ r ∈ rows, r.1.length = r.2.length then
    .ok (rows.map fun r => logLossRow ε (oneHot r.2) (softmax r.1)).sum
  else .error .value

/-- one sample of `_log_loss` (jax) — `_src/optimize/loss/jax.py:24-45`: clip, renormalise, `-Σ y log p` -/
noncomputable def logLossRowJax (ε : ℝ) (y p : List ℝ) : ℝ :=
  let c := p.map (clip ε);
  -(List.zipWith (fun y p => y * Real.log (p / c.sum)) y c).sum

/-- `_cross_entropy_fn` (jax) — `_src/optimize/loss/jax.py:12-21`. -/
noncomputable def crossEntropyJax (ε : ℝ) (rows : List (List ℝ × List ℝ)) : ℝ :=
  (rows.map fun r => logLossRowJax ε (oneHot r.2) (softmax r.1)).sum

/-- `_cross_entropy_fn` (torch) — `_src/optimize/loss/torch.py:9-21`:
`-mean(y log p + (1-y) log(1-p)) * batch_count`, the mean taken over all `batch * classes` entries. -/
noncomputable def crossEntropyTorch (rows : List (List ℝ × List ℝ)) : ℝ :=
  let terms := rows.map fun r => List.zipWith (fun y p => y * Real.log p + (1 - y) * Real.log (1 - p))
    (oneHot r.2) (softmax r.1);
  -(terms.flatten.sum / terms.flatten.length) * rows.length

end MuyGPyS.Loss
