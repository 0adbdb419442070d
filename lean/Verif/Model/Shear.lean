import Verif.Model.Posterior
import Mathlib.Analysis.SpecialFunctions.Exp

/-!
# Model of the lensing shear kernels: `_src/gp/kernels/shear/numpy.py`, `gp/kernels/experimental/shear.py`

All six block functions receive the elementwise statistics of the difference vectors. The length scale
is a nonzero real (division by a zero length scale is not modelled).
-/

namespace MuyGPyS
namespace Shear
open Py

/-- `_kk_fn` — `_src/gp/kernels/shear/numpy.py:10-26`. -/
noncomputable def kk (e S P Q ℓ : ℝ) : ℝ :=
  0.25 * ((8 * ℓ ^ 2 - 8 * ℓ * S + 2 * P + Q) * e / ℓ ^ 4)

/-- `_kg1_fn` — `_src/gp/kernels/shear/numpy.py:29-39`. -/
noncomputable def kg1 (e XYQ YXS ℓ : ℝ) : ℝ := 0.25 * ((6 * ℓ * YXS + XYQ) * e / ℓ ^ 4)

/-- `_kg2_fn` — `_src/gp/kernels/shear/numpy.py:42-54`. -/
noncomputable def kg2 (e S D ℓ : ℝ) : ℝ := 0.5 * D * (-6 * ℓ + S) * e / ℓ ^ 4

/-- `_g1g1_fn` — `_src/gp/kernels/shear/numpy.py:57-73`. -/
noncomputable def g1g1 (e S Q P ℓ : ℝ) : ℝ := 0.25 * ((4 * ℓ ^ 2 - 4 * ℓ * S - 2 * P + Q) * e / ℓ ^ 4)

/-- `_g1g2_fn` — `_src/gp/kernels/shear/numpy.py:76-88`. -/
noncomputable def g1g2 (e XYS D ℓ : ℝ) : ℝ := 0.5 * D * XYS * e / ℓ ^ 4

/-- `_g2g2_fn` — `_src/gp/kernels/shear/numpy.py:91-101`. -/
noncomputable def g2g2 (e S P ℓ : ℝ) : ℝ := (ℓ ^ 2 - ℓ * S + P) * e / ℓ ^ 4

/-- The statistics of one difference vector (`f` features) — `_src/gp/kernels/shear/numpy.py:114-124`:
product, sum of squares, product of squares, sum of fourth powers, the differences of squares and fourth
powers of the first two features, and the exponential. -/
structure Stats where
  D : ℝ
  S : ℝ
  P : ℝ
  Q : ℝ
  YXS : ℝ
  XYS : ℝ
  XYQ : ℝ
  e : ℝ

/-- See `Stats` — `_src/gp/kernels/shear/numpy.py:105-125`. -/
noncomputable def stats (f : Nat) (ℓ : ℝ) (d : Nat → ℝ) : Stats where
  D := ∏ c ∈ Finset.range f, d c
  S := ∑ c ∈ Finset.range f, d c ^ 2
  P := ∏ c ∈ Finset.range f, d c ^ 2
  Q := ∑ c ∈ Finset.range f, (d c ^ 2) ^ 2
  YXS := d 1 ^ 2 - d 0 ^ 2
  XYS := d 0 ^ 2 - d 1 ^ 2
  XYQ := (d 0 ^ 2) ^ 2 - (d 1 ^ 2) ^ 2
  e := Real.exp (-(∑ c ∈ Finset.range f, d c ^ 2) / (2 * ℓ))

/-- The block assignments of `_shear_33_fn` — `_src/gp/kernels/shear/numpy.py:126-160`. Blocks never
assigned stay `0` (`np.zeros`). -/
noncomputable def block33 (ℓ : ℝ) (s : Stats) (a c : Nat) : ℝ :=
  match a, c with
  | 0, 0 => kk s.e s.S s.P s.Q ℓ
  | 0, 1 => kg1 s.e s.XYQ s.YXS ℓ
  | 1, 0 => kg1 s.e s.XYQ s.YXS ℓ
  | 0, 2 => kg2 s.e s.S s.D ℓ
  | 2, 0 => kg2 s.e s.S s.D ℓ
  | 1, 1 => g1g1 s.e s.S s.Q s.P ℓ
  | 1, 2 => g1g2 s.e s.XYS s.D ℓ
  | 2, 1 => g1g2 s.e s.XYS s.D ℓ
  | 2, 2 => g2g2 s.e s.S s.P ℓ
  | _, _ => 0

/-- The block assignments of `_shear_Kin23_fn` — `_src/gp/kernels/shear/numpy.py:185-203`. -/
noncomputable def blockIn23 (ℓ : ℝ) (s : Stats) (a c : Nat) : ℝ :=
  match a, c with
  | 0, 0 => g1g1 s.e s.S s.Q s.P ℓ
  | 0, 1 => g1g2 s.e s.XYS s.D ℓ
  | 1, 0 => g1g2 s.e s.XYS s.D ℓ
  | 1, 1 => g2g2 s.e s.S s.P ℓ
  | _, _ => 0

/-- The block assignments of `_shear_Kcross23_fn` — `_src/gp/kernels/shear/numpy.py:231-258`. -/
noncomputable def blockCross23 (ℓ : ℝ) (s : Stats) (a c : Nat) : ℝ :=
  match a, c with
  | 0, 0 => kg1 s.e s.XYQ s.YXS ℓ
  | 1, 0 => kg2 s.e s.S s.D ℓ
  | 0, 1 => g1g1 s.e s.S s.Q s.P ℓ
  | 0, 2 => g1g2 s.e s.XYS s.D ℓ
  | 1, 1 => g1g2 s.e s.XYS s.D ℓ
  | 1, 2 => g2g2 s.e s.S s.P ℓ
  | _, _ => 0

/-- The common frame of the three backend functions — `_src/gp/kernels/shear/numpy.py:105-162, 166-205,
210-260`: differences of shape `prefix + (n, m, f)` give a tensor of shape `prefix + (rows, n, cols, m)`
holding the blocks, from which axes of length one are removed. Fewer than three axes: `AssertionError`;
fewer than two features: `IndexError` (`sq_diffs[..., 1]`). -/
noncomputable def assemble (rows cols : Nat) (block : Stats → Nat → Nat → ℝ) (ℓ : ℝ) (diffs : Tensor ℝ) :
    Res (Tensor ℝ) :=
  match diffs.shape.reverse with
  | f :: m :: n :: rest =>
    if f < 2 then .error .index
    else
      let k := rest.length
      .ok (Tensor.squeeze (Tensor.ofFn (rest.reverse ++ [rows, n, cols, m]) fun idx =>
        block (stats f ℓ fun c => diffs.get (idx.take k ++ [idx.getD (k + 1) 0, idx.getD (k + 3) 0, c]))
          (idx.getD k 0) (idx.getD (k + 2) 0)))
  | _ => .error .assertion

/-- `_shear_33_fn` — `_src/gp/kernels/shear/numpy.py:105-162`. -/
noncomputable def shear33 (diffs : Tensor ℝ) (ℓ : ℝ) : Res (Tensor ℝ) := assemble 3 3 (block33 ℓ) ℓ diffs

/-- `_shear_Kin23_fn` — `_src/gp/kernels/shear/numpy.py:166-205`. -/
noncomputable def shearKin23 (diffs : Tensor ℝ) (ℓ : ℝ) : Res (Tensor ℝ) := assemble 2 2 (blockIn23 ℓ) ℓ diffs

/-- `_shear_Kcross23_fn` — `_src/gp/kernels/shear/numpy.py:210-260`. -/
noncomputable def shearKcross23 (diffs : Tensor ℝ) (ℓ : ℝ) : Res (Tensor ℝ) := assemble 2 3 (blockCross23 ℓ) ℓ diffs

/-- The test `diffs.shape[-2] != diffs.shape[-3]` and the insertion `diffs[..., None, :]` —
`gp/kernels/experimental/shear.py:126-129`. The Boolean says whether the axis was inserted. -/
def adjustDiffs (diffs : Tensor ℝ) : Res (Bool × Tensor ℝ) :=
  match diffs.shape.reverse with
  | f :: n :: b :: rest =>
    if n ≠ b then .ok (true, ⟨rest.reverse ++ [b, n, 1, f], diffs.flat⟩) else .ok (false, diffs)
  | _ => .error .index

/-- A `ShearKernel` or `ShearKernel2in3out`: its stored length scale — `gp/kernels/experimental/shear.py:60-109,169-239`. -/
structure Kern where
  lengthScale : ℝ

/-- `ShearKernel.__call__(diffs, adjust, length_scale=…)` — `gp/kernels/experimental/shear.py:101-130`. -/
noncomputable def Kern.call33 (k : Kern) (diffs : Tensor ℝ) (adjust : Bool := true) (kw : Option ℝ := none) :
    Res (Tensor ℝ) := do
  let d ← if adjust then adjustDiffs diffs else .ok (false, diffs)
  shear33 d.2 (kw.getD k.lengthScale)

/-- `ShearKernel.Kout` — `gp/kernels/experimental/shear.py:132-133` (keyword arguments are ignored). -/
noncomputable def Kern.kout (k : Kern) (_kw : Option ℝ := none) : Res (Tensor ℝ) := k.call33 ⟨[1, 1, 2], fun _ => 0⟩

/-- `ShearKernel2in3out.__call__(diffs, adjust, force_Kcross, length_scale=…)` —
`gp/kernels/experimental/shear.py:216-265`. -/
noncomputable def Kern.call23 (k : Kern) (diffs : Tensor ℝ) (adjust : Bool := true) (forceKcross : Bool := false)
    (kw : Option ℝ := none) : Res (Tensor ℝ) :=
  if forceKcross then shearKcross23 diffs (kw.getD k.lengthScale)
  else do
    let d ← if adjust then adjustDiffs diffs else .ok (false, diffs)
    if d.1 then shearKcross23 d.2 (kw.getD k.lengthScale) else shearKin23 d.2 (kw.getD k.lengthScale)

/-- `ShearKernel2in3out.Kout` — `gp/kernels/experimental/shear.py:267-268`. -/
noncomputable def Kern.kout23 (k : Kern) (_kw : Option ℝ := none) : Res (Tensor ℝ) :=
  shear33 ⟨[1, 1, 2], fun _ => 0⟩ k.lengthScale

end Shear
end MuyGPyS
