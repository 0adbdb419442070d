import Verif.Model.ShearWorkflow
import Verif.Model.Sampler
import Mathlib.LinearAlgebra.Matrix.NonsingularInverse

/-!
# Model of the conventional shear Gaussian process: `_test/shear.py`

The reference the repository compares its shear kernels with: covariance matrices filled entry by entry, full posterior means and
covariances, and synthetic observations. Matrices are two-dimensional tensors. The normal numbers of `np.random.normal` are an argument.
-/

namespace MuyGPyS
namespace Shear
open Py Matrix

/-- `kk_f` — `_test/shear.py:17-33`. -/
noncomputable def kkF (x1 y1 x2 y2 a b : ℝ) : ℝ :=
  1 / 4 * (a * (8 * b ^ 2 - 8 * b * ((x1 - x2) ^ 2 + (y1 - y2) ^ 2) + (x1 - x2) ^ 4 + 2 * (x1 - x2) ^ 2 * (y1 - y2) ^ 2 + (y1 - y2) ^ 4)
    * Real.exp (-((x1 - x2) ^ 2 + (y1 - y2) ^ 2) / (2 * b)) / b ^ 4)

/-- `kg1_f` — `_test/shear.py:36-50`. -/
noncomputable def kg1F (x1 y1 x2 y2 a b : ℝ) : ℝ :=
  1 / 4 * (a * (6 * b * (-((x1 - x2) ^ 2) + (y1 - y2) ^ 2) + (x1 - x2) ^ 4 - (y1 - y2) ^ 4)
    * Real.exp (-((x1 - x2) ^ 2 + (y1 - y2) ^ 2) / (2 * b)) / b ^ 4)

/-- `kg2_f` — `_test/shear.py:53-66`. -/
noncomputable def kg2F (x1 y1 x2 y2 a b : ℝ) : ℝ :=
  1 / 4 * (2 * a * (x1 - x2) * (y1 - y2) * (-6 * b + (x1 - x2) ^ 2 + (y1 - y2) ^ 2)
    * Real.exp (-((x1 - x2) ^ 2 + (y1 - y2) ^ 2) / (2 * b)) / b ^ 4)

/-- `g1g1_f` — `_test/shear.py:69-85`. -/
noncomputable def g1g1F (x1 y1 x2 y2 a b : ℝ) : ℝ :=
  1 / 4 * (a * (4 * b ^ 2 - 4 * b * ((x1 - x2) ^ 2 + (y1 - y2) ^ 2) + (x1 - x2) ^ 4 - 2 * (x1 - x2) ^ 2 * (y1 - y2) ^ 2 + (y1 - y2) ^ 4)
    * Real.exp (-((x1 - x2) ^ 2 + (y1 - y2) ^ 2) / (2 * b)) / b ^ 4)

/-- `g1g2_f` — `_test/shear.py:88-101`. -/
noncomputable def g1g2F (x1 y1 x2 y2 a b : ℝ) : ℝ :=
  1 / 4 * (2 * a * (x1 - x2) * (y1 - y2) * ((x1 - x2) ^ 2 - (y1 - y2) ^ 2)
    * Real.exp (-((x1 - x2) ^ 2 + (y1 - y2) ^ 2) / (2 * b)) / b ^ 4)

/-- `g2g2_f` — `_test/shear.py:104-118`. -/
noncomputable def g2g2F (x1 y1 x2 y2 a b : ℝ) : ℝ :=
  1 / 4 * (4 * a * (b ^ 2 - b * ((x1 - x2) ^ 2 + (y1 - y2) ^ 2) + (x1 - x2) ^ 2 * (y1 - y2) ^ 2)
    * Real.exp (-((x1 - x2) ^ 2 + (y1 - y2) ^ 2) / (2 * b)) / b ^ 4)

/-- `shear_kernel` — `_test/shear.py:122-134`: the entries of `full_m`. -/
noncomputable def shearKernelF (x1 y1 x2 y2 a b : ℝ) (i j : Nat) : ℝ :=
  match i, j with
  | 0, 0 => kkF x1 y1 x2 y2 a b
  | 0, 1 => kg1F x1 y1 x2 y2 a b
  | 0, 2 => kg2F x1 y1 x2 y2 a b
  | 1, 1 => g1g1F x1 y1 x2 y2 a b
  | 1, 2 => g1g2F x1 y1 x2 y2 a b
  | 2, 2 => g2g2F x1 y1 x2 y2 a b
  | 1, 0 => kg1F x1 y1 x2 y2 a b
  | 2, 0 => kg2F x1 y1 x2 y2 a b
  | 2, 1 => g1g2F x1 y1 x2 y2 a b
  | _, _ => 0

/-- `conventional_shear` — `_test/shear.py:137-151`. Every entry of `vals` is assigned: row `a * n1 + i`, column `b * n2 + j`. Tables
that are not two-dimensional cannot be unpacked, and neither can rows of another length than two (`ValueError`). -/
noncomputable def conventionalShear (X1 : Tensor ℝ) (X2 : Option (Tensor ℝ)) (ℓ : ℝ) : Res (Tensor ℝ) :=
  match X1.shape, (X2.getD X1).shape with
  | [n1, f1], [n2, f2] =>
    if 0 < n1 ∧ (f1 ≠ 2 ∨ 0 < n2 ∧ f2 ≠ 2) then .error .value
    else .ok (Tensor.ofFn [3 * n1, 3 * n2] fun q =>
      let r := q.getD 0 0
      let c := q.getD 1 0
      shearKernelF (X1.get [r % n1, 0]) (X1.get [r % n1, 1]) ((X2.getD X1).get [c % n2, 0]) ((X2.getD X1).get [c % n2, 1]) 1 ℓ
        (r / n1) (c / n2))
  | _, _ => .error .value

/-- `conventional_Kout` — `_test/shear.py:173-181`, given the value `Kout` of `kernel.Kout()`: three constant blocks on the diagonal,
zero elsewhere. -/
noncomputable def conventionalKout (Kout : Tensor ℝ) (t : Nat) : Tensor ℝ :=
  Tensor.ofFn [3 * t, 3 * t] fun q =>
    let r := q.getD 0 0
    let c := q.getD 1 0
    if r / t = c / t then Kout.get [r / t, r / t] else 0

/-- `A.T` of a matrix — `_test/shear.py:183-227`. -/
noncomputable def matT (A : Tensor ℝ) : Tensor ℝ :=
  match A.shape with
  | [n, m] => Tensor.ofFn [m, n] fun q => A.get [q.getD 1 0, q.getD 0 0]
  | _ => A

/-- `A[n:, n:]` of a matrix (`rows` and `cols` dropped) — `_test/shear.py:193-227`. -/
noncomputable def dropBlock (rows cols : Nat) (A : Tensor ℝ) : Tensor ℝ :=
  match A.shape with
  | [n, m] => Tensor.ofFn [n - rows, m - cols] fun q => A.get [rows + q.getD 0 0, cols + q.getD 1 0]
  | _ => A

/-- `Y.swapaxes(0, 1).reshape(r * n)` of an `(n, r)` table — `tests/experimental/shear.py:131-133`. -/
noncomputable def flatTargets (Y : Tensor ℝ) : Tensor ℝ :=
  match Y.shape with
  | [n, r] => Tensor.ofFn [r * n] fun q => Y.get [q.getD 0 0 % n, q.getD 0 0 / n]
  | _ => Y

/-- `Kin + diag(nugget)` as a matrix — `_test/shear.py:183-227`. -/
noncomputable def nuggetMat (m : Nat) (Kin : Tensor ℝ) (nugget : Nat → ℝ) : Matrix (Fin m) (Fin m) ℝ :=
  Matrix.of fun i j => Kin.get [i, j] + if i = j then nugget i else 0

open Classical in
/-- The body of `conventional_mean` and `conventional_mean33` — `_test/shear.py:184-207`. Simplification: a `Kin` that is not square is a
`ValueError` (NumPy would broadcast a single row or column). -/
noncomputable def convMean (nugget : Nat → ℝ) (Kin Kcross targets : Tensor ℝ) : Res (Tensor ℝ) :=
  match Kin.shape, Kcross.shape, targets.shape with
  | [m, m'], [r, m''], [q] =>
    if m' = m ∧ q = m ∧ m'' = m then
      if (nuggetMat m Kin nugget).det = 0 then .error .linAlg
      else if 3 * (r / 3) = r then
        .ok (Tensor.ofFn [r / 3, 3] fun e =>
          (fun j : Fin m => Kcross.get [e.getD 1 0 * (r / 3) + e.getD 0 0, j]) ⬝ᵥ
            ((nuggetMat m Kin nugget)⁻¹ *ᵥ fun j : Fin m => targets.get [j]))
      else .error .value
    else .error .value
  | _, _, _ => .error .value

/-- `conventional_mean` — `_test/shear.py:184-191`. -/
noncomputable def conventionalMean (Kin Kcross targets : Tensor ℝ) (noise : ℝ) : Res (Tensor ℝ) := convMean (fun _ => noise) Kin Kcross targets

/-- The nugget of `conventional_mean33` and `conventional_variance33` — `_test/shear.py:199-203,224-228`. -/
noncomputable def nugget33 (m : Nat) (noise : ℝ) (i : Nat) : ℝ := if i < m / 3 then 2 * noise else noise

/-- `conventional_mean33` — `_test/shear.py:194-208`. -/
noncomputable def conventionalMean33 (Kin Kcross targets : Tensor ℝ) (noise : ℝ) : Res (Tensor ℝ) :=
  match Kin.shape with
  | m :: _ => if m % 3 = 0 then convMean (nugget33 m noise) Kin Kcross targets else .error .assertion
  | [] => .error .index

open Classical in
/-- The body of `conventional_variance` and `conventional_variance33` — `_test/shear.py:211-229`. -/
noncomputable def convVariance (nugget : Nat → ℝ) (Kin Kcross Kout : Tensor ℝ) : Res (Tensor ℝ) :=
  match Kin.shape, Kcross.shape, Kout.shape with
  | [m, m'], [r, m''], [s, s'] =>
    if m' = m ∧ m'' = m ∧ s = r ∧ s' = r then
      if (nuggetMat m Kin nugget).det = 0 then .error .linAlg
      else .ok (Tensor.ofFn [r, r] fun e =>
        Kout.get [e.getD 0 0, e.getD 1 0] - (fun j : Fin m => Kcross.get [e.getD 0 0, j]) ⬝ᵥ
          ((nuggetMat m Kin nugget)⁻¹ *ᵥ fun j : Fin m => Kcross.get [e.getD 1 0, j]))
    else .error .value
  | _, _, _ => .error .value

/-- `conventional_variance` — `_test/shear.py:211-215`. -/
noncomputable def conventionalVariance (Kin Kcross Kout : Tensor ℝ) (noise : ℝ) : Res (Tensor ℝ) := convVariance (fun _ => noise) Kin Kcross Kout

/-- `conventional_variance33` — `_test/shear.py:218-229`. -/
noncomputable def conventionalVariance33 (Kin Kcross Kout : Tensor ℝ) (noise : ℝ) : Res (Tensor ℝ) :=
  match Kin.shape with
  | m :: _ => if m % 3 = 0 then convVariance (nugget33 m noise) Kin Kcross Kout else .error .assertion
  | [] => .error .index

/-- `_crosswise_tensor` for vectors of indices — `_src/gp/tensors/numpy.py:44-56`: `locations[:, None, :] - points` for tables of
features (NumPy puts an axis of length one in front of `points`; one-dimensional data are not modelled here). -/
def crosswiseVector (data nnData : Tensor ℝ) (idx nn : Tensor Int) : Res (Tensor ℝ) :=
  match data.take idx with
  | .error e => .error e
  | .ok loc =>
    match nnData.take nn with
    | .error e => .error e
    | .ok pts =>
      match loc.shape, pts.shape with
      | [n, f], [m, f'] => Tensor.bop (· - ·) ⟨[n, 1, f], loc.flat⟩ ⟨[1, m, f'], pts.flat⟩
      | _, _ => .error .value

/-- `targets_from_GP` — `_test/shear.py:154-170`; `e` are the standard normal numbers drawn. -/
noncomputable def targetsFromGP (features : Tensor ℝ) (n : Nat) (ls noise : ℝ) (e : Nat → ℝ) : Res (Tensor ℝ) := do
  let N ← match features.shape with
    | [] => .error .index
    | N :: _ => .ok N
  let diffs ← Sampler.pairwiseVector features (arange N)
  let Kin ← (⟨ls⟩ : Kern).call33 diffs false
  let flat ← Kin.reshape [3 * n ^ 2, 3 * n ^ 2]
  let L ← Sampler.cholesky ⟨[3 * n ^ 2, 3 * n ^ 2], fun k => 1 * flat.flat k + noise * eye (k / (3 * n ^ 2)) (k % (3 * n ^ 2))⟩
  return Tensor.ofFn [n ^ 2, 3] fun q => ∑ j ∈ Finset.range (3 * n ^ 2), L.get [q.getD 1 0 * n ^ 2 + q.getD 0 0, j] * e j

end Shear
end MuyGPyS
