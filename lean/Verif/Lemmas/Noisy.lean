import Verif.Props.FewNeighboursWorst

/-! # Kriging with a noise variance per observation -/

namespace MuyGPyS
open Py Matrix

variable {X : Type*} {κ : X → X → ℝ} {n : Nat}

theorem diag_quad (t d : Fin n → ℝ) : d ⬝ᵥ (diagonal t *ᵥ d) = ∑ i, t i * d i ^ 2 := by
  rw [dotProduct]
  exact Finset.sum_congr rfl fun i _ => by rw [mulVec_diagonal]; ring

theorem of_quad (x : Fin n → X) (d : Fin n → ℝ) :
    d ⬝ᵥ ((Matrix.of fun i j => κ (x i) (x j)) *ᵥ d) = ∑ i, ∑ j, d i * d j * κ (x i) (x j) := by
  simp only [dotProduct, mulVec, of_apply, Finset.mul_sum]
  exact Finset.sum_congr rfl fun i _ => Finset.sum_congr rfl fun j _ => by ring

theorem of_psd (hs : ∀ x y, κ x y = κ y x)
    (hp : ∀ (n : Nat) (x : Fin n → X) (d : Fin n → ℝ), 0 ≤ ∑ i, ∑ j, d i * d j * κ (x i) (x j)) (x : Fin n → X) :
    (Matrix.of fun i j => κ (x i) (x j)).PosSemidef :=
  PosSemidef.of_dotProduct_mulVec_nonneg (by ext i j; simp [hs]) fun d => by
    rw [star_trivial, of_quad]; exact hp n x d

theorem noisy_posdef (hs : ∀ x y, κ x y = κ y x)
    (hp : ∀ (n : Nat) (x : Fin n → X) (d : Fin n → ℝ), 0 ≤ ∑ i, ∑ j, d i * d j * κ (x i) (x j)) (x : Fin n → X) {t : Fin n → ℝ}
    (ht : ∀ i, 0 < t i) : ((Matrix.of fun i j => κ (x i) (x j)) + diagonal t).PosDef :=
  PosDef.posSemidef_add (of_psd hs hp x) (PosDef.diagonal ht)

/-- The covariance of the error of a prediction with any value of the process. -/
theorem error_covariance (hs : ∀ x y, κ x y = κ y x) (h1 : ∀ x, κ x x = 1)
    (hp : ∀ (n : Nat) (x : Fin n → X) (d : Fin n → ℝ), 0 ≤ ∑ i, ∑ j, d i * d j * κ (x i) (x j)) (x : Fin n → X) (q z : X) {t : Fin n → ℝ}
    (ht : ∀ i, 0 < t i) :
    (κ z q - ∑ j, (((Matrix.of fun i j => κ (x i) (x j)) + diagonal t)⁻¹ *ᵥ fun j => κ q (x j)) j * κ z (x j)) ^ 2 ≤
      Spec.krigingVar 1 ((Matrix.of fun i j => κ (x i) (x j)) + diagonal t) (fun j => κ q (x j)) := by
  have hA := noisy_posdef hs hp x ht
  have h := (kriging_error hs x q (diagonal t) hA).2 1 (κ z) (by
    have := combination_energy hs hp (fun _ : Fin 1 => z) fun _ => 1
    have e : Spec.combination κ (fun _ : Fin 1 => z) (fun _ => 1) = κ z := by funext y; simp [Spec.combination]
    rw [e] at this
    simpa [h1] using this)
  refine h.trans ?_
  rw [h1, one_mul, diag_quad]
  exact sub_le_self _ (Finset.sum_nonneg fun i _ => mul_nonneg (ht i).le (sq_nonneg _))

/-- How much one response weighs in a prediction. -/
theorem noisy_weights (hs : ∀ x y, κ x y = κ y x) (h1 : ∀ x, κ x x = 1)
    (hp : ∀ (n : Nat) (x : Fin n → X) (d : Fin n → ℝ), 0 ≤ ∑ i, ∑ j, d i * d j * κ (x i) (x j)) (x : Fin n → X) (q : X) {t : Fin n → ℝ}
    (ht : ∀ i, 0 < t i) : ∃ c : Fin n → ℝ,
      (∀ y, Spec.krigingMean ((Matrix.of fun i j => κ (x i) (x j)) + diagonal t) (fun j => κ q (x j)) y = ∑ j, c j * y j) ∧
      4 * ∑ i, t i * c i ^ 2 ≤ 1 ∧
      ∀ i, |c i| ≤ √(Spec.krigingVar 1 ((Matrix.of fun i j => κ (x i) (x j)) + diagonal t) (fun j => κ q (x j))) / t i := by
  have hA := noisy_posdef hs hp x ht
  have hc := Kriging.mulVec_inv_cancel (Kriging.det_ne_zero hA) fun j => κ q (x j)
  have he := fun z => error_covariance hs h1 hp x q z ht
  refine ⟨_, (kriging_error hs x q (diagonal t) hA).1, ?_, fun i => ?_⟩
  · set c := ((Matrix.of fun i j => κ (x i) (x j)) + diagonal t)⁻¹ *ᵥ fun j => κ q (x j)
    have h := hp (1 + n) (Fin.append (fun _ : Fin 1 => q) x) (Fin.append (fun _ : Fin 1 => (1 : ℝ)) fun j => - (2 * c j))
    simp only [Fin.sum_univ_add, Fin.append_left, Fin.append_right, Finset.univ_unique, Finset.sum_singleton, Finset.sum_add_distrib, h1] at h
    have e1 : ∑ j, 1 * - (2 * c j) * κ q (x j) = - (2 * ∑ j, c j * κ q (x j)) := by
      rw [Finset.mul_sum, ← Finset.sum_neg_distrib]
      exact Finset.sum_congr rfl fun j _ => by ring
    have e2 : ∑ j, - (2 * c j) * 1 * κ (x j) q = - (2 * ∑ j, c j * κ q (x j)) := by
      rw [Finset.mul_sum, ← Finset.sum_neg_distrib]
      exact Finset.sum_congr rfl fun j _ => by rw [hs]; ring
    have e3 : ∑ i, ∑ j, - (2 * c i) * - (2 * c j) * κ (x i) (x j) = 4 * ∑ i, ∑ j, c i * c j * κ (x i) (x j) := by
      rw [Finset.mul_sum]
      refine Finset.sum_congr rfl fun i _ => ?_
      rw [Finset.mul_sum]
      exact Finset.sum_congr rfl fun j _ => by ring
    have e4 : ∑ j, c j * κ q (x j) = ∑ i, ∑ j, c i * c j * κ (x i) (x j) + ∑ i, t i * c i ^ 2 := by
      rw [← of_quad, ← diag_quad, ← dotProduct_add, ← add_mulVec, hc]
      rfl
    rw [e1, e2, e3] at h
    linarith
  · set c := ((Matrix.of fun i j => κ (x i) (x j)) + diagonal t)⁻¹ *ᵥ fun j => κ q (x j)
    have h := congrFun hc i
    rw [add_mulVec, Pi.add_apply, mulVec_diagonal] at h
    have e : ((Matrix.of fun i j => κ (x i) (x j)) *ᵥ c) i = ∑ j, c j * κ (x i) (x j) := by
      simp only [mulVec, dotProduct, of_apply]
      exact Finset.sum_congr rfl fun j _ => by ring
    have e2 : κ (x i) q - ∑ j, c j * κ (x i) (x j) = c i * t i := by
      rw [hs (x i) q, ← e]
      linarith
    have h3 := he (x i)
    rw [e2] at h3
    rw [le_div_iff₀ (ht i)]
    have := Real.abs_le_sqrt h3
    rwa [abs_mul, abs_of_pos (ht i)] at this

/-- Two predictions, one from some of the observations of the other: if the other observations are noisy, the predictions differ little. -/
theorem noisy_drop (hs : ∀ x y, κ x y = κ y x) (h1 : ∀ x, κ x x = 1)
    (hp : ∀ (n : Nat) (x : Fin n → X) (d : Fin n → ℝ), 0 ≤ ∑ i, ∑ j, d i * d j * κ (x i) (x j)) {n' : Nat} (x : Fin n' → X) (q : X) {t : Fin n' → ℝ}
    (ht : ∀ i, 0 < t i) (e : Fin n → Fin n') (he : Function.Injective e) :
    let A' := (Matrix.of fun i j => κ (x i) (x j)) + diagonal t
    let A := (Matrix.of fun i j => κ (x (e i)) (x (e j))) + diagonal (t ∘ e)
    let V' := Spec.krigingVar 1 A' fun j => κ q (x j)
    let V := Spec.krigingVar 1 A fun j => κ q (x (e j))
    (V' ≤ V ∧ V - V' ≤ V * ∑ i ∈ (Finset.univ.image e)ᶜ, 1 / t i) ∧
    ∀ (E : ℝ) (g : X → ℝ) (y : Fin n' → ℝ), 0 ≤ E → Spec.EnergyAtMost κ E g →
      (Spec.krigingMean A' (fun j => κ q (x j)) y - Spec.krigingMean A (fun j => κ q (x (e j))) (y ∘ e)) ^ 2 ≤
        (E + ∑ i, (y i - g (x i)) ^ 2 / t i) * (V - V') := by
  intro A' A V' V
  have hA' : A'.PosDef := noisy_posdef hs hp x ht
  have hsub : A'.submatrix e e = A := by
    ext i j
    simp only [A', A, submatrix_apply, Matrix.add_apply, of_apply, diagonal_apply, he.eq_iff, Function.comp]
  have hA : A.PosDef := hsub ▸ hA'.submatrix he
  set c' : Fin n' → ℝ := fun j => κ q (x j) with hc'
  set g := A'⁻¹ *ᵥ c' with hg
  set u := A⁻¹ *ᵥ (c' ∘ e) with hu
  have hAg : A' *ᵥ g = c' := Kriging.mulVec_inv_cancel (Kriging.det_ne_zero hA') _
  have hAu : A *ᵥ u = c' ∘ e := Kriging.mulVec_inv_cancel (Kriging.det_ne_zero hA) _
  set d := g - placed e u with hd
  have hV : V - V' = d ⬝ᵥ (A' *ᵥ d) := by
    have h1 : placed e u ⬝ᵥ (A' *ᵥ g) = (c' ∘ e) ⬝ᵥ u := by rw [hAg, placed_dot, dotProduct_comm]
    have h2 : g ⬝ᵥ (A' *ᵥ placed e u) = (c' ∘ e) ⬝ᵥ u := by rw [Kriging.quad_symm (Kriging.posdef_symm hA'), h1]
    have h3 : placed e u ⬝ᵥ (A' *ᵥ placed e u) = (c' ∘ e) ⬝ᵥ u := by rw [placed_quad, hsub, hAu, dotProduct_comm]
    have h4 : g ⬝ᵥ (A' *ᵥ g) = c' ⬝ᵥ g := by rw [hAg, dotProduct_comm]
    show Spec.krigingVar 1 A (c' ∘ e) - Spec.krigingVar 1 A' c' = _
    rw [hd, mulVec_sub, sub_dotProduct, dotProduct_sub, dotProduct_sub, h1, h2, h3, h4, Spec.krigingVar, Spec.krigingVar, ← hg, ← hu]
    ring
  have hquad : d ⬝ᵥ (A' *ᵥ d) = (∑ i, ∑ j, d i * d j * κ (x i) (x j)) + ∑ i, t i * d i ^ 2 := by
    rw [add_mulVec, dotProduct_add, of_quad, diag_quad]
  have hk0 := hp n' x d
  have ht0 : 0 ≤ ∑ i, t i * d i ^ 2 := Finset.sum_nonneg fun i _ => mul_nonneg (ht i).le (sq_nonneg _)
  have hmean : ∀ y, Spec.krigingMean A' c' y - Spec.krigingMean A (c' ∘ e) (y ∘ e) = ∑ i, d i * y i := fun y => by
    rw [Spec.krigingMean, Spec.krigingMean, ← Kriging.swap (Kriging.posdef_symm hA'), ← Kriging.swap (Kriging.posdef_symm hA)]
    show _ = d ⬝ᵥ y
    rw [hd, sub_dotProduct, placed_dot]
  -- the residuals of the smaller prediction
  set r := A' *ᵥ d with hr
  have hre : ∀ j, r (e j) = 0 := fun j => by
    have : (A' *ᵥ placed e u) (e j) = (A *ᵥ u) j := by
      show A' (e j) ⬝ᵥ placed e u = A j ⬝ᵥ u
      rw [dotProduct_comm, placed_dot, dotProduct_comm, ← hsub]
      rfl
    rw [hr, hd, mulVec_sub, Pi.sub_apply, hAg, this, hAu]
    exact sub_self _
  have hri : ∀ i, (∀ j, e j ≠ i) → r i ^ 2 ≤ V := fun i hi => by
    have h := error_covariance hs h1 hp (fun j => x (e j)) q (x i) (t := t ∘ e) fun j => ht _
    refine (le_of_eq ?_).trans h
    congr 1
    have : (A' *ᵥ placed e u) i = ∑ j, u j * κ (x i) (x (e j)) := by
      show A' i ⬝ᵥ placed e u = _
      rw [dotProduct_comm, placed_dot, dotProduct]
      refine Finset.sum_congr rfl fun j _ => ?_
      simp only [A', Matrix.add_apply, of_apply, Function.comp, diagonal_apply_ne _ (fun h => hi j h.symm), add_zero]
    rw [hr, hd, mulVec_sub, Pi.sub_apply, hAg, this, hs (x i) q]
    rfl
  have hS : d ⬝ᵥ r = ∑ i ∈ (Finset.univ.image e)ᶜ, d i * r i := by
    rw [dotProduct, ← Finset.sum_compl_add_sum (Finset.univ.image e), Finset.sum_image fun a _ b _ h => he h]
    simp only [hre, mul_zero, Finset.sum_const_zero, add_zero]
  have hnn : 0 ≤ d ⬝ᵥ r := by rw [hr, hquad]; exact add_nonneg hk0 ht0
  refine ⟨⟨by linarith, ?_⟩, fun E g y hE hgE => ?_⟩
  · have hcs : (d ⬝ᵥ r) ^ 2 ≤ (d ⬝ᵥ r) * ∑ i ∈ (Finset.univ.image e)ᶜ, r i ^ 2 / t i := by
      have h := Finset.sum_mul_sq_le_sq_mul_sq (Finset.univ.image e)ᶜ (fun i => √(t i) * d i) fun i => r i / √(t i)
      have e1 : ∀ i, √(t i) * d i * (r i / √(t i)) = d i * r i := fun i => by
        have := (Real.sqrt_pos.mpr (ht i)).ne'
        field_simp
      have e2 : ∀ i, (√(t i) * d i) ^ 2 = t i * d i ^ 2 := fun i => by rw [mul_pow, Real.sq_sqrt (ht i).le]
      have e3 : ∀ i, (r i / √(t i)) ^ 2 = r i ^ 2 / t i := fun i => by rw [div_pow, Real.sq_sqrt (ht i).le]
      simp only [e1, e2, e3] at h
      rw [← hS] at h
      refine h.trans (mul_le_mul_of_nonneg_right ?_ (Finset.sum_nonneg fun i _ => div_nonneg (sq_nonneg _) (ht i).le))
      rw [hquad]
      refine le_add_of_nonneg_of_le hk0 (Finset.sum_le_sum_of_subset_of_nonneg (Finset.subset_univ _) fun i _ _ => mul_nonneg (ht i).le (sq_nonneg _))
    have hle : d ⬝ᵥ r ≤ ∑ i ∈ (Finset.univ.image e)ᶜ, r i ^ 2 / t i := by
      rcases hnn.eq_or_lt with h0 | h0
      · rw [← h0]
        exact Finset.sum_nonneg fun i _ => div_nonneg (sq_nonneg _) (ht i).le
      · rw [sq] at hcs
        exact le_of_mul_le_mul_left hcs h0
    rw [hV]
    refine hle.trans ?_
    rw [Finset.mul_sum]
    refine Finset.sum_le_sum fun i hi => ?_
    rw [mul_one_div]
    refine div_le_div_of_nonneg_right (hri i fun j hj => ?_) (ht i).le
    rw [Finset.mem_compl, Finset.mem_image] at hi
    exact hi ⟨j, Finset.mem_univ _, hj⟩
  · have e1 : (∑ i, d i * y i) = ∑ i, d i * g (x i) + ∑ i, d i * (y i - g (x i)) := by
      rw [← Finset.sum_add_distrib]
      exact Finset.sum_congr rfl fun i _ => by ring
    show (Spec.krigingMean A' c' y - Spec.krigingMean A (c' ∘ e) (y ∘ e)) ^ 2 ≤ _
    rw [hmean, e1, hV, hquad]
    refine sq_add_le hE (Finset.sum_nonneg fun i _ => div_nonneg (sq_nonneg _) (ht i).le) hk0 ht0 (hgE n' x d) ?_
    have h := Finset.sum_mul_sq_le_sq_mul_sq Finset.univ (fun i => (y i - g (x i)) / √(t i)) fun i => √(t i) * d i
    have e1 : ∀ i, (y i - g (x i)) / √(t i) * (√(t i) * d i) = d i * (y i - g (x i)) := fun i => by
      have := (Real.sqrt_pos.mpr (ht i)).ne'
      field_simp
    have e2 : ∀ i, (√(t i) * d i) ^ 2 = t i * d i ^ 2 := fun i => by rw [mul_pow, Real.sq_sqrt (ht i).le]
    have e3 : ∀ i, ((y i - g (x i)) / √(t i)) ^ 2 = (y i - g (x i)) ^ 2 / t i := fun i => by rw [div_pow, Real.sq_sqrt (ht i).le]
    simp only [e1, e2, e3] at h
    exact h

end MuyGPyS
