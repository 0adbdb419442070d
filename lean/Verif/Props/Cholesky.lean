import Verif.Model.Sampler
import Mathlib.Analysis.Matrix.LDL
import Mathlib.LinearAlgebra.Matrix.Block
import Mathlib.Data.Real.StarOrdered

/-!
# Cholesky factors: existence and uniqueness
-/

namespace MuyGPyS.Sampler
open Matrix

variable {n : Nat} {A L M : Matrix (Fin n) (Fin n) ℝ}

theorem IsCholesky.lower (h : IsCholesky A L) : L.IsLowerTriangular := fun _ _ hij => h.1 _ _ hij

theorem IsCholesky.det_ne_zero (h : IsCholesky A L) : L.det ≠ 0 := by
  rw [det_of_isLowerTriangular _ h.lower]
  exact Finset.prod_ne_zero_iff.mpr fun i _ => (h.2.1 i).ne'

theorem IsCholesky.posDef (h : IsCholesky A L) : A.PosDef := by
  rw [← h.2.2, ← conjTranspose_eq_transpose_of_trivial]
  refine PosDef.mul_conjTranspose_self _ ?_
  have hu : IsUnit L := (isUnit_iff_isUnit_det _).mpr (isUnit_iff_ne_zero.mpr h.det_ne_zero)
  exact vecMul_injective_of_isUnit hu

/-- Every positive definite matrix has a Cholesky factor. -/
theorem cholesky_exists (hA : A.PosDef) : ∃ L, IsCholesky A L := by
  have hinv : Invertible (LDL.lowerInv hA) := inferInstance
  set B := LDL.lowerInv hA with hB
  have hBl : B.IsLowerTriangular := fun i j hij => LDL.lowerInv_triangular hA hij
  have hLl : (LDL.lower hA).IsLowerTriangular := blockTriangular_inv_of_blockTriangular hBl
  have hBdet : B.det ≠ 0 := (isUnit_of_invertible B |> (isUnit_iff_isUnit_det _).mp).ne_zero
  have hLdet : (LDL.lower hA).det ≠ 0 := by
    show (B⁻¹).det ≠ 0
    rw [det_nonsing_inv, Ring.inverse_eq_inv']
    exact inv_ne_zero hBdet
  have hdiag : ∀ i, LDL.lower hA i i ≠ 0 := by
    rw [det_of_isLowerTriangular _ hLl] at hLdet
    exact fun i => Finset.prod_ne_zero_iff.mp hLdet i (Finset.mem_univ i)
  have hD : ∀ i, 0 < LDL.diagEntries hA i := by
    have : (LDL.diag hA).PosDef := by
      rw [LDL.diag_eq_lowerInv_conj]
      exact hA.mul_mul_conjTranspose_same (vecMul_injective_of_isUnit (isUnit_of_invertible B))
    exact posDef_diagonal_iff.mp this
  let d : Fin n → ℝ := fun i => SignType.sign (LDL.lower hA i i) * √(LDL.diagEntries hA i)
  have hentry : ∀ i j, (LDL.lower hA * diagonal d) i j = LDL.lower hA i j * d j := fun i j => by rw [mul_diagonal]
  have hs : ∀ x : ℝ, x ≠ 0 → ((SignType.sign x : SignType) : ℝ) * ((SignType.sign x : SignType) : ℝ) = 1 := fun x hx => by
    rcases lt_or_gt_of_ne hx with h | h
    · simp [sign_neg h]
    · simp [sign_pos h]
  refine ⟨LDL.lower hA * diagonal d, fun i j hij => ?_, fun i => ?_, ?_⟩
  · rw [hentry, hLl hij, zero_mul]
  · rw [hentry]
    show 0 < LDL.lower hA i i * (SignType.sign (LDL.lower hA i i) * √(LDL.diagEntries hA i))
    rw [← mul_assoc, mul_comm (LDL.lower hA i i), sign_mul_self]
    exact mul_pos (abs_pos.mpr (hdiag i)) (Real.sqrt_pos.mpr (hD i))
  · have hdd : diagonal d * diagonal d = LDL.diag hA := by
      rw [diagonal_mul_diagonal, LDL.diag]
      congr 1
      funext i
      have := hs _ (hdiag i)
      have h2 := Real.mul_self_sqrt (hD i).le
      simp only [d]
      linear_combination (LDL.diagEntries hA i) * this + ((SignType.sign (LDL.lower hA i i) : SignType) : ℝ) *
        ((SignType.sign (LDL.lower hA i i) : SignType) : ℝ) * h2
    rw [transpose_mul, diagonal_transpose, Matrix.mul_assoc, ← Matrix.mul_assoc (diagonal d), hdd, ← Matrix.mul_assoc,
      ← conjTranspose_eq_transpose_of_trivial, LDL.lower_conj_diag]

theorem cholesky_iff : (∃ L, IsCholesky A L) ↔ A.PosDef := ⟨fun ⟨_, h⟩ => h.posDef, cholesky_exists⟩

/-- The Cholesky factor is unique. -/
theorem cholesky_unique (hL : IsCholesky A L) (hM : IsCholesky A M) : L = M := by
  have uM : IsUnit M.det := isUnit_iff_ne_zero.mpr hM.det_ne_zero
  have uL : IsUnit L.det := isUnit_iff_ne_zero.mpr hL.det_ne_zero
  have iM : Invertible M := Matrix.invertibleOfIsUnitDet M uM
  have iL : Invertible L := Matrix.invertibleOfIsUnitDet L uL
  set T := M⁻¹ * L with hT
  have hMT : M * T = L := by rw [hT, ← Matrix.mul_assoc, mul_nonsing_inv _ uM, Matrix.one_mul]
  have hTl : T.IsLowerTriangular := BlockTriangular.mul (blockTriangular_inv_of_blockTriangular hM.lower) hL.lower
  have hTT : T * Tᵀ = 1 := by
    have h1 : M * (T * Tᵀ) * Mᵀ = M * Mᵀ := by
      rw [hM.2.2, ← hL.2.2]
      conv_rhs => rw [← hMT, transpose_mul]
      simp only [Matrix.mul_assoc]
    have h2 : M⁻¹ * (M * (T * Tᵀ) * Mᵀ) * (Mᵀ)⁻¹ = M⁻¹ * (M * Mᵀ) * (Mᵀ)⁻¹ := by rw [h1]
    have uMt : IsUnit Mᵀ.det := by rw [det_transpose]; exact uM
    have e : ∀ Z, M⁻¹ * (M * Z * Mᵀ) * (Mᵀ)⁻¹ = Z := fun Z => by
      rw [Matrix.mul_assoc M, ← Matrix.mul_assoc M⁻¹, nonsing_inv_mul _ uM, Matrix.one_mul, Matrix.mul_assoc, mul_nonsing_inv _ uMt, Matrix.mul_one]
    rw [e] at h2
    have e' := e 1
    rw [Matrix.mul_one] at e'
    rw [h2, e']
  have hTu : T.IsUpperTriangular := by
    have : T = (Tᵀ)⁻¹ := (inv_eq_left_inv hTT).symm
    have uT : IsUnit Tᵀ.det := by
      have := congrArg det hTT
      rw [det_mul, det_one] at this
      exact isUnit_iff_ne_zero.mpr fun h0 => by rw [h0, mul_zero] at this; exact one_ne_zero this.symm
    have iT : Invertible Tᵀ := Matrix.invertibleOfIsUnitDet _ uT
    rw [this]
    exact blockTriangular_inv_of_blockTriangular hTl.transpose
  have hTd : ∀ i j, i ≠ j → T i j = 0 := fun i j hij => by
    rcases lt_or_gt_of_ne hij with h | h
    · exact hTl h
    · exact hTu h
  have hdiagL : ∀ i, L i i = M i i * T i i := fun i => by
    rw [← hMT, mul_apply, Finset.sum_eq_single i]
    · intro j _ hj; rw [hTd j i hj, mul_zero]
    · simp
  have hTi : ∀ i, T i i = 1 := fun i => by
    have h1 := congrFun (congrFun hTT i) i
    rw [mul_apply, one_apply_eq, Finset.sum_eq_single i] at h1
    · have hpos : 0 < T i i := by
        have := hL.2.1 i
        rw [hdiagL] at this
        exact (pos_iff_pos_of_mul_pos this).mp (hM.2.1 i)
      rw [transpose_apply] at h1
      nlinarith
    · intro j _ hj; rw [hTd i j hj.symm, zero_mul]
    · simp
  have : T = 1 := by
    ext i j
    by_cases hij : i = j
    · subst hij; rw [hTi, one_apply_eq]
    · rw [hTd i j hij, one_apply_ne hij]
  rw [← hMT, this, Matrix.mul_one]

end MuyGPyS.Sampler
