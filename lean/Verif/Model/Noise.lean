import Verif.Py.Tensor

/-!
# Model of the noise models: `_src/gp/noise/numpy.py`, `gp/noise/*.py`
-/

namespace MuyGPyS
open Py

/-- `np.eye(n)[i, j]` — `_src/gp/noise/numpy.py:9-28`. -/
def eye (i j : Nat) : ℝ := if i = j then 1 else 0

/-- `_homoscedastic_perturb` — `_src/gp/noise/numpy.py:9-27`.
`Kin + noise * np.eye(n)` adds the scaled identity to every matrix of the stack.
Simplification: for a 3-D tensor whose last two sizes differ NumPy would raise, or broadcast if one
of them is 1; the model raises. -/
noncomputable def homoscedasticPerturb (Kin : Tensor ℝ) (noise : ℝ) : Res (Tensor ℝ) :=
  match Kin.shape with
  | [b, n, m] =>
    if m = n then
      .ok ⟨[b, n, n], fun k => Kin.flat k + noise * eye (k % (n * n) / n) (k % n)⟩
    else .error .value
  | [b, ic, n, ic2, n2] =>
    if n = n2 then
      if ic = ic2 then do
        let all := ic * n
        let flat ← Kin.reshape [b, all, all]
        let flat' : Tensor ℝ :=
          ⟨[b, all, all], fun k => flat.flat k + noise * eye (k % (all * all) / all) (k % all)⟩
        flat'.reshape [b, ic, n, ic, n]
      else .error .assertion
    else .error .assertion
  | _ => .error .value

/-- The diagonal of the nugget of `_shear_perturb33`: `np.hstack((2 noise * ones(n), noise * ones(2n)))`
— `_src/gp/noise/numpy.py:31,39-46`. -/
noncomputable def shearNugget (n : Nat) (noise : ℝ) (i : Nat) : ℝ :=
  if i < n then (noise * 2) * 1 else noise * 1

/-- `_shear_perturb33` — `_src/gp/noise/numpy.py:30-53`. -/
noncomputable def shearPerturb33 (Kin : Tensor ℝ) (noise : ℝ) : Res (Tensor ℝ) :=
  match Kin.shape with
  | [b, ic, n, ic2, n2] =>
    if n = n2 then
      if ic = ic2 then
        if ic = 3 then do
          let all := ic * n
          let flat ← Kin.reshape [b, all, all]
          let flat' : Tensor ℝ := ⟨[b, all, all], fun k =>
            flat.flat k + shearNugget n noise (k % (all * all) / all)
              * eye (k % (all * all) / all) (k % all)⟩
          flat'.reshape [b, ic, n, ic, n]
        else .error .assertion
      else .error .assertion
    else .error .assertion
  | _ => .error .value

/-- `_heteroscedastic_perturb` — `_src/gp/noise/numpy.py:56-67`: `ret[p, j, j] += noise.flatten()[p*n + j]`.
The flattened noise must have `b * n` entries (or one, which broadcasts). Index pairs are distinct,
so the in-place `+=` adds each value once. A third axis shorter than `n` is an `IndexError`. -/
noncomputable def heteroscedasticPerturb (Kin noise : Tensor ℝ) : Res (Tensor ℝ) :=
  match Kin.shape with
  | [b, n, m] =>
    if m < n then .error .index
    else if noise.shape.prod = b * n then
      .ok ⟨[b, n, m], fun k =>
        Kin.flat k + (if k % (n * m) / m = k % m then noise.flat (k / (n * m) * n + k % m) else 0)⟩
    else if noise.shape.prod = 1 then
      .ok ⟨[b, n, m], fun k =>
        Kin.flat k + (if k % (n * m) / m = k % m then noise.flat 0 else 0)⟩
    else .error .value
  | _ => .error .value

/-- The noise models of `gp/noise/*.py`: `HomoscedasticNoise`, `HeteroscedasticNoise`,
`ShearNoise33`, `NullNoise`, by stored value. -/
inductive Noise
  | homoscedastic (val : ℝ)
  | heteroscedastic (val : Tensor ℝ)
  | shear33 (val : ℝ)
  | null

/-- `noise.perturb(Kin, noise=kw)`: `gp/noise/homoscedastic.py:60-88` (keyword overrides the stored
value), `gp/noise/heteroscedastic.py:48-67` (keyword ignored), `gp/noise/shear.py` (homoscedastic
with another backend), `gp/noise/null.py:32-47`. -/
noncomputable def Noise.perturb (ν : Noise) (Kin : Tensor ℝ) (kw : Option ℝ := none) : Res (Tensor ℝ) :=
  match ν with
  | .homoscedastic v => homoscedasticPerturb Kin (kw.getD v)
  | .shear33 v => shearPerturb33 Kin (kw.getD v)
  | .heteroscedastic v => heteroscedasticPerturb Kin v
  | .null => .ok Kin

/-- `noise.perturb_fn(fn)`: `gp/noise/homoscedastic.py:112-115`, `gp/noise/heteroscedastic.py:90-93`,
`gp/noise/null.py:49-50`: perturb the first argument, pass the rest on. -/
noncomputable def Noise.perturbFn {β : Type} (ν : Noise) (fn : Tensor ℝ → Res β) (Kin : Tensor ℝ)
    (kw : Option ℝ := none) : Res β := do
  let K ← ν.perturb Kin kw
  fn K

end MuyGPyS
