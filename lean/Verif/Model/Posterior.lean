import Verif.Model.Noise

/-!
# Model of the posterior computations: `_src/gp/muygps/numpy.py`, `gp/mean.py`, `gp/variance.py`,
`gp/fast_mean.py`, `gp/fast_precompute.py`, `gp/muygps.py`
-/

namespace MuyGPyS
open Py

/-- `_find_matching_ndim` — `_src/gp/muygps/numpy.py:9-14`: the number of positions at which the two
shapes agree (`np.equal` of shape vectors of different length raises). Note that *all* positions are
counted, not the common prefix. -/
def findMatchingNdim (yShape kShape : List Nat) : Res Nat :=
  if yShape.length ≤ kShape.length then
    .ok ((List.zipWith (fun a b => if a = b then 1 else 0) yShape (kShape.take yShape.length)).sum)
  else .error .value

/-- Python `s[: -2 * k]` of a tuple: `k = 0` gives the empty tuple — `_src/gp/muygps/numpy.py:26`. -/
def dropTail2 (s : List Nat) (k : Nat) : List Nat :=
  if k = 0 then [] else s.take (s.length - 2 * k)

/-- `_muygps_posterior_mean` — `_src/gp/muygps/numpy.py:17-41`. -/
noncomputable def posteriorMean (Kin Kcross y : Tensor ℝ) : Res (Tensor ℝ) := do
  let bi ← findMatchingNdim y.shape Kin.shape
  let inShape := Kin.shape.drop bi
  let outShape := Kcross.shape.drop bi
  let batchShape := dropTail2 Kin.shape inShape.length
  let extraShape := y.shape.drop (batchShape.length + inShape.length)
  let inSize := inShape.prod
  let outSize := outShape.prod
  let extraSize := extraShape.prod
  let yFlat ← y.reshape (batchShape ++ [inSize, extraSize])
  let KinFlat ← Kin.reshape (batchShape ++ [inSize, inSize])
  let KcrossFlat ← Kcross.reshape (batchShape ++ [inSize, outSize])
  let F ← Tensor.solve batchShape inSize outSize KinFlat KcrossFlat
  let ret ← Tensor.matmulT batchShape inSize outSize extraSize F yFlat
  ret.reshape (batchShape ++ outShape ++ extraShape)

/-- `Kout - Kpost` with `Kout` a scalar (shape `[]`) or of the trailing shape `trail`
(`_src/gp/muygps/numpy.py:67`); other broadcasts raise here. -/
noncomputable def koutMinus (Kout : Tensor ℝ) (trail : List Nat) (Kpost : Tensor ℝ) : Res (Tensor ℝ) :=
  if Kout.shape = [] then .ok ⟨Kpost.shape, fun k => Kout.flat 0 - Kpost.flat k⟩
  else if Kout.shape = trail then
    .ok ⟨Kpost.shape, fun k => Kout.flat (k % trail.prod) - Kpost.flat k⟩
  else .error .value

/-- `_muygps_diagonal_variance` — `_src/gp/muygps/numpy.py:44-67`, with its default `batch_size = 1`. -/
noncomputable def diagonalVariance (Kin Kcross Kout : Tensor ℝ) : Res (Tensor ℝ) := do
  let batchSize := 1
  let inDimCount := (Kin.ndim - batchSize) / 2
  let batchShape := Kin.shape.take batchSize
  let inShape := Kin.shape.drop (batchSize + inDimCount)
  let outShape := Kcross.shape.drop (batchSize + inDimCount)
  let inSize := inShape.prod
  let outSize := outShape.prod
  let KinFlat ← Kin.reshape (batchShape ++ [inSize, inSize])
  let KcrossFlat ← Kcross.reshape (batchShape ++ [inSize, outSize])
  let F ← Tensor.solve batchShape inSize outSize KinFlat KcrossFlat
  let Kpost ← Tensor.matmulT batchShape inSize outSize outSize F KcrossFlat
  let Kpost' ← Kpost.reshape (batchShape ++ outShape ++ outShape)
  koutMinus Kout (outShape ++ outShape) Kpost'

/-- `np.einsum("ij,ijk->ik", A, B)`; axes of length one broadcast — `_src/gp/muygps/numpy.py:76`. -/
noncomputable def einsumFast (A B : Tensor ℝ) : Res (Tensor ℝ) :=
  match A.shape, B.shape with
  | [i1, j1], [i2, j2, k] =>
    if (i1 = i2 ∨ i1 = 1 ∨ i2 = 1) ∧ (j1 = j2 ∨ j1 = 1 ∨ j2 = 1) then
      let i := if i1 = 1 then i2 else i1
      let j := if j1 = 1 then j2 else j1
      let cl (d x : Nat) : Nat := if d = 1 then 0 else x
      .ok ⟨[i, k], fun q =>
        ((List.range j).map fun x =>
          A.flat (cl i1 (q / k) * j1 + cl j1 x)
            * B.flat (cl i2 (q / k) * (j2 * k) + cl j2 x * k + q % k)).sum⟩
    else .error .value
  | _, _ => .error .value

/-- `_muygps_fast_posterior_mean` — `_src/gp/muygps/numpy.py:70-77`. -/
noncomputable def fastPosteriorMean (Kcross coeffs : Tensor ℝ) : Res (Tensor ℝ) := do
  let r ← einsumFast Kcross coeffs.atleast3d
  pure r.squeeze

/-- `_muygps_fast_posterior_mean_precompute` — `_src/gp/muygps/numpy.py:88-95`.
(The response tensor must be 2-D or 3-D after adding the axis.) -/
noncomputable def fastPrecompute (Kin y : Tensor ℝ) : Res (Tensor ℝ) := do
  let y' : Tensor ℝ := match y.shape with
    | [b, n] => ⟨[b, n, 1], y.flat⟩
    | _ => y
  match y'.shape with
  | [b, n, r] => do
    let s ← Tensor.solve [b] n r Kin y'
    pure s.squeeze
  | _ => .error .value

/-! ## `MuyGPS` objects -/

/-- A `MuyGPS` model reduced to what its posterior methods use: the noise model, the prior variance
`Kout` of its kernel, the current value of the scale parameter and the value of the scale captured
by `_make()` (the default argument `scale=self()` is evaluated when `scale_fn` is called:
`gp/hyperparameter/scale.py:106-109`, `gp/muygps.py:113-130`). -/
structure MuyGPS where
  noise : Noise
  kout : Tensor ℝ
  scale : ℝ
  boundScale : ℝ

/-- Constructor + `_make()` — `gp/muygps.py:92-130`. -/
def MuyGPS.make (noise : Noise) (kout : Tensor ℝ) (scale : ℝ) : MuyGPS :=
  ⟨noise, kout, scale, scale⟩

/-- `MuyGPS.posterior_mean` — `gp/muygps.py:166-214`, `gp/mean.py:17-37`. -/
noncomputable def MuyGPS.posteriorMean (m : MuyGPS) (Kin Kcross y : Tensor ℝ) : Res (Tensor ℝ) :=
  m.noise.perturbFn (fun K => MuyGPyS.posteriorMean K Kcross y) Kin

/-- `get_opt_mean_fn()` called with a `noise` keyword — `gp/muygps.py:328-341`, `gp/mean.py:36-37`. -/
noncomputable def MuyGPS.optMean (m : MuyGPS) (Kin Kcross y : Tensor ℝ) (kw : Option ℝ) : Res (Tensor ℝ) :=
  m.noise.perturbFn (fun K => MuyGPyS.posteriorMean K Kcross y) Kin kw

/-- `get_opt_var_fn()`: the unscaled variance — `gp/variance.py:27-52`. -/
noncomputable def MuyGPS.optVariance (m : MuyGPS) (Kin Kcross : Tensor ℝ) (kw : Option ℝ := none) : Res (Tensor ℝ) :=
  m.noise.perturbFn (fun K => diagonalVariance K Kcross m.kout) Kin kw

/-- `MuyGPS.posterior_variance` — `gp/muygps.py:216-264`, `gp/variance.py:27-48`:
`scale * variance` with the scale captured at `_make()` time. -/
noncomputable def MuyGPS.posteriorVariance (m : MuyGPS) (Kin Kcross : Tensor ℝ) : Res (Tensor ℝ) := do
  let v ← m.optVariance Kin Kcross
  pure (v.map fun x => m.boundScale * x)

/-- `MuyGPS.fast_coefficients` — `gp/muygps.py:266-300`, `gp/fast_precompute.py`. -/
noncomputable def MuyGPS.fastCoefficients (m : MuyGPS) (Kin y : Tensor ℝ) : Res (Tensor ℝ) :=
  m.noise.perturbFn (fun K => fastPrecompute K y) Kin

/-- `MuyGPS.fast_posterior_mean` — `gp/muygps.py:302-326`, `gp/fast_mean.py`. -/
noncomputable def MuyGPS.fastPosteriorMean (_m : MuyGPS) (Kcross coeffs : Tensor ℝ) : Res (Tensor ℝ) :=
  MuyGPyS.fastPosteriorMean Kcross coeffs

end MuyGPyS
