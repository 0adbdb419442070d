import Verif.Spec.Views
import Mathlib.Order.Interval.Finset.Fin
import Mathlib.Data.Finset.Sort

/-! # Specification of the variance-scale estimates -/

namespace Spec
open Matrix

/-- the quadratic form `yᵀ K⁻¹ y` of one neighbourhood -/
noncomputable def quadForm {n : Nat} (K : Matrix (Fin n) (Fin n) ℝ) (y : Fin n → ℝ) : ℝ :=
  y ⬝ᵥ (K⁻¹ *ᵥ y)

/-- the documented estimate `1/(b k) Σ_i Y_iᵀ K_i⁻¹ Y_i` -/
noncomputable def scaleEstimate {n : Nat} (b : Nat) (K : Nat → Matrix (Fin n) (Fin n) ℝ)
    (y : Nat → Fin n → ℝ) : ℝ :=
  (1 / ((b : ℝ) * n)) * ∑ p ∈ Finset.range b, quadForm (K p) (y p)

/-- the quadratic form of the sub-neighbourhood with the positions in `S` (in increasing order) -/
noncomputable def subForm {n : Nat} (K : Matrix (Fin n) (Fin n) ℝ) (y : Fin n → ℝ)
    (S : Finset (Fin n)) : ℝ :=
  quadForm (K.submatrix (S.orderEmbOfFin rfl) (S.orderEmbOfFin rfl)) (y ∘ S.orderEmbOfFin rfl)

/-- the estimate from the sub-neighbourhoods with the `d` sampled positions `s`:
`1/(b d) Σ_i (Y_i|s)ᵀ (K_i|s)⁻¹ (Y_i|s)` -/
noncomputable def subEstimate {n : Nat} (b d : Nat) (K : Nat → Matrix (Fin n) (Fin n) ℝ)
    (y : Nat → Fin n → ℝ) (s : List Nat) : ℝ :=
  (∑ p ∈ Finset.range b, subForm (K p) (y p) (Finset.univ.filter fun i : Fin n => (i : Nat) ∈ s))
    / ((d : ℝ) * b)

end Spec
