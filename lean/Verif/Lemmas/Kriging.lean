import Verif.Spec.Kriging
import Mathlib.LinearAlgebra.Matrix.PosDef
import Mathlib.Algebra.Order.Star.Real
import Mathlib.Tactic.Linarith
import Mathlib.Tactic.Abel

set_option linter.unusedSectionVars false

namespace Kriging
open Matrix

variable {ι κ : Type*} [Fintype ι] [DecidableEq ι] [Fintype κ] [DecidableEq κ]

theorem det_ne_zero {K : Matrix ι ι ℝ} (h : K.PosDef) : K.det ≠ 0 :=
  (Matrix.isUnit_iff_isUnit_det K).1 h.isUnit |>.ne_zero

theorem symm_of_herm {K : Matrix ι ι ℝ} (h : K.IsHermitian) : K.transpose = K := by
  have := h.eq
  rwa [conjTranspose_eq_transpose_of_trivial] at this

theorem posdef_symm {K : Matrix ι ι ℝ} (h : K.PosDef) : K.transpose = K := symm_of_herm h.1

theorem inv_symm {K : Matrix ι ι ℝ} (h : K.transpose = K) : (K⁻¹).transpose = K⁻¹ := by
  rw [transpose_nonsing_inv, h]

/-- the code's `(K⁻¹ k)ᵀ y` is the textbook `kᵀ K⁻¹ y` for symmetric `K` -/
theorem swap {K : Matrix ι ι ℝ} (h : K.transpose = K) (k y : ι → ℝ) :
    (K⁻¹ *ᵥ k) ⬝ᵥ y = k ⬝ᵥ (K⁻¹ *ᵥ y) := by
  rw [dotProduct_mulVec, ← mulVec_transpose, inv_symm h]

theorem mulVec_inv_cancel {K : Matrix ι ι ℝ} (h : K.det ≠ 0) (k : ι → ℝ) : K *ᵥ (K⁻¹ *ᵥ k) = k := by
  rw [mulVec_mulVec, mul_nonsing_inv _ (Ne.isUnit h), one_mulVec]

theorem inv_mulVec_cancel {K : Matrix ι ι ℝ} (h : K.det ≠ 0) (k : ι → ℝ) : K⁻¹ *ᵥ (K *ᵥ k) = k := by
  rw [mulVec_mulVec, nonsing_inv_mul _ (Ne.isUnit h), one_mulVec]

/-- if `k` is column `j` of `K` then `K⁻¹ k` is the `j`-th unit vector -/
theorem inv_col {K : Matrix ι ι ℝ} (h : K.det ≠ 0) (j : ι) :
    K⁻¹ *ᵥ (fun i => K i j) = Pi.single j 1 := by
  have : (fun i => K i j) = K *ᵥ (Pi.single j 1) := by
    ext i; simp
  rw [this, inv_mulVec_cancel h]

theorem quad_symm {K : Matrix ι ι ℝ} (h : K.transpose = K) (x y : ι → ℝ) :
    x ⬝ᵥ (K *ᵥ y) = y ⬝ᵥ (K *ᵥ x) := by
  rw [dotProduct_mulVec, ← mulVec_transpose, h, dotProduct_comm]

/-- variational characterisation: `2 kᵀx - xᵀKx ≤ kᵀK⁻¹k` -/
theorem variational {K : Matrix ι ι ℝ} (h : K.PosDef) (k x : ι → ℝ) :
    2 * (k ⬝ᵥ x) - x ⬝ᵥ (K *ᵥ x) ≤ k ⬝ᵥ (K⁻¹ *ᵥ k) := by
  have hd := det_ne_zero h
  have hs := posdef_symm h
  have h1 := h.posSemidef.dotProduct_mulVec_nonneg (x - K⁻¹ *ᵥ k)
  have h2 : (x - K⁻¹ *ᵥ k) ⬝ᵥ (K *ᵥ (x - K⁻¹ *ᵥ k))
      = x ⬝ᵥ (K *ᵥ x) - 2 * (k ⬝ᵥ x) + k ⬝ᵥ (K⁻¹ *ᵥ k) := by
    rw [mulVec_sub, mulVec_inv_cancel hd, sub_dotProduct, dotProduct_sub, dotProduct_sub]
    rw [quad_symm hs (K⁻¹ *ᵥ k) x, mulVec_inv_cancel hd, dotProduct_comm x k,
      dotProduct_comm (K⁻¹ *ᵥ k) k]
    ring
  simp only [star_trivial] at h1
  linarith

theorem variational_eq {K : Matrix ι ι ℝ} (h : K.det ≠ 0) (k : ι → ℝ) :
    2 * (k ⬝ᵥ (K⁻¹ *ᵥ k)) - (K⁻¹ *ᵥ k) ⬝ᵥ (K *ᵥ (K⁻¹ *ᵥ k)) = k ⬝ᵥ (K⁻¹ *ᵥ k) := by
  rw [mulVec_inv_cancel h, dotProduct_comm (K⁻¹ *ᵥ k) k]; ring

theorem quad_nonneg {K : Matrix ι ι ℝ} (h : K.PosDef) (k : ι → ℝ) : 0 ≤ k ⬝ᵥ (K⁻¹ *ᵥ k) := by
  have := variational h k 0
  simpa using this

theorem quad_pos {K : Matrix ι ι ℝ} (h : K.PosDef) {k : ι → ℝ} (hk : k ≠ 0) :
    0 < k ⬝ᵥ (K⁻¹ *ᵥ k) := by
  have := h.inv.dotProduct_mulVec_pos hk
  simpa using this

/-- Loewner monotonicity of `kᵀ · ⁻¹ k` -/
theorem quad_antitone {A B : Matrix ι ι ℝ} (hA : A.PosDef) (hB : B.PosDef)
    (hle : ∀ x : ι → ℝ, x ⬝ᵥ (A *ᵥ x) ≤ x ⬝ᵥ (B *ᵥ x)) (k : ι → ℝ) :
    k ⬝ᵥ (B⁻¹ *ᵥ k) ≤ k ⬝ᵥ (A⁻¹ *ᵥ k) := by
  have h1 := variational hA k (B⁻¹ *ᵥ k)
  have h2 := variational_eq (det_ne_zero hB) k
  have h3 := hle (B⁻¹ *ᵥ k)
  linarith

/-- restricting to a sub-neighbourhood can only decrease `kᵀK⁻¹k` -/
theorem quad_submatrix {K : Matrix ι ι ℝ} (h : K.PosDef) (e : κ → ι) (he : Function.Injective e)
    (k : ι → ℝ) :
    (k ∘ e) ⬝ᵥ ((K.submatrix e e)⁻¹ *ᵥ (k ∘ e)) ≤ k ⬝ᵥ (K⁻¹ *ᵥ k) := by
  have hsub : (K.submatrix e e).PosDef := h.submatrix he
  set x : κ → ℝ := (K.submatrix e e)⁻¹ *ᵥ (k ∘ e) with hx
  have h2 := variational_eq (det_ne_zero hsub) (k ∘ e)
  rw [← hx] at h2
  -- extend `x` by zero
  let z : ι → ℝ := fun i => ∑ a, if e a = i then x a else 0
  have hz : ∀ f : ι → ℝ, z ⬝ᵥ f = x ⬝ᵥ (f ∘ e) := by
    intro f
    simp only [dotProduct, z, Finset.sum_mul, ite_mul, zero_mul, Function.comp]
    rw [Finset.sum_comm]
    simp
  have h1 := variational h k z
  have e1 : k ⬝ᵥ z = (k ∘ e) ⬝ᵥ x := by rw [dotProduct_comm, hz, dotProduct_comm]
  have e2 : z ⬝ᵥ (K *ᵥ z) = x ⬝ᵥ ((K.submatrix e e) *ᵥ x) := by
    rw [hz]
    congr 1
    ext a
    simp only [Function.comp, mulVec]
    rw [dotProduct_comm, hz, dotProduct_comm]
    rfl
  rw [e1, e2] at h1
  linarith

/-- adding non-negative multiples of the identity keeps positive definiteness -/
theorem posdef_add_smul_one {K : Matrix ι ι ℝ} (h : K.PosDef) {τ : ℝ} (hτ : 0 ≤ τ) :
    (K + τ • (1 : Matrix ι ι ℝ)).PosDef :=
  h.add_posSemidef (PosSemidef.one.smul hτ)

theorem posdef_of_psd_add {K : Matrix ι ι ℝ} (h : K.PosSemidef) {τ : ℝ} (hτ : 0 < τ) :
    (K + τ • (1 : Matrix ι ι ℝ)).PosDef :=
  Matrix.PosDef.posSemidef_add h (PosDef.one.smul hτ)

theorem quad_add_smul_one (K : Matrix ι ι ℝ) (τ : ℝ) (x : ι → ℝ) :
    x ⬝ᵥ ((K + τ • (1 : Matrix ι ι ℝ)) *ᵥ x) = x ⬝ᵥ (K *ᵥ x) + τ * (x ⬝ᵥ x) := by
  rw [add_mulVec, dotProduct_add, smul_mulVec, one_mulVec, dotProduct_smul, smul_eq_mul]

/-- the joint covariance of neighbours and query -/
def joint (K : Matrix ι ι ℝ) (k : ι → ℝ) (c : ℝ) : Matrix (ι ⊕ Unit) (ι ⊕ Unit) ℝ :=
  fromBlocks K (of fun i _ => k i) (of fun _ j => k j) (of fun _ _ => c)

theorem joint_quad_eq (K : Matrix ι ι ℝ) (k : ι → ℝ) (c : ℝ) (x : ι → ℝ) :
    (Sum.elim x (fun _ => (-1 : ℝ))) ⬝ᵥ (joint K k c *ᵥ (Sum.elim x (fun _ => (-1 : ℝ))))
      = x ⬝ᵥ (K *ᵥ x) - 2 * (k ⬝ᵥ x) + c := by
  rw [joint, fromBlocks_mulVec]
  rw [show (Sum.elim x fun _ => (-1:ℝ)) ∘ Sum.inl = x from rfl,
    show (Sum.elim x fun _ => (-1:ℝ)) ∘ Sum.inr = fun _ : Unit => (-1:ℝ) from rfl]
  rw [sumElim_dotProduct_sumElim, dotProduct_add]
  have a1 : (x ⬝ᵥ ((of fun i (_ : Unit) => k i) *ᵥ fun _ => (-1:ℝ))) = - (k ⬝ᵥ x) := by
    simp only [dotProduct, mulVec, Finset.univ_unique, Finset.sum_singleton]
    rw [← Finset.sum_neg_distrib]
    refine Finset.sum_congr rfl fun i _ => ?_
    rw [of_apply]; ring
  have a2 : ((fun _ : Unit => (-1:ℝ)) ⬝ᵥ ((of fun (_ : Unit) j => k j) *ᵥ x
      + (of fun (_ _ : Unit) => c) *ᵥ fun _ => (-1:ℝ))) = - (k ⬝ᵥ x) + c := by
    simp [dotProduct, mulVec]; ring
  rw [a1, a2]; ring

/-- quadratic form of the joint covariance -/
theorem joint_quad {K : Matrix ι ι ℝ} {k : ι → ℝ} {c : ℝ} (h : (joint K k c).PosSemidef)
    (x : ι → ℝ) : 0 ≤ x ⬝ᵥ (K *ᵥ x) - 2 * (k ⬝ᵥ x) + c := by
  have := h.dotProduct_mulVec_nonneg (Sum.elim x (fun _ => (-1 : ℝ)))
  simp only [star_trivial] at this
  rwa [joint_quad_eq] at this

/-- Schur complement of the joint covariance is non-negative, also with extra noise on the
neighbours -/
theorem schur_nonneg {K : Matrix ι ι ℝ} {k : ι → ℝ} {c τ : ℝ} (h : (joint K k c).PosSemidef)
    (hτ : 0 ≤ τ) (hp : (K + τ • (1 : Matrix ι ι ℝ)).PosDef) :
    0 ≤ c - k ⬝ᵥ ((K + τ • (1 : Matrix ι ι ℝ))⁻¹ *ᵥ k) := by
  set A := K + τ • (1 : Matrix ι ι ℝ) with hA
  set x := A⁻¹ *ᵥ k with hx
  have h1 := joint_quad h x
  have h2 := variational_eq (det_ne_zero hp) k
  rw [← hx] at h2
  have h3 : x ⬝ᵥ (A *ᵥ x) = x ⬝ᵥ (K *ᵥ x) + τ * (x ⬝ᵥ x) := quad_add_smul_one K τ x
  have h4 : 0 ≤ x ⬝ᵥ x := by
    simp only [dotProduct]; exact Finset.sum_nonneg fun i _ => mul_self_nonneg _
  have h5 : 0 ≤ τ * (x ⬝ᵥ x) := mul_nonneg hτ h4
  linarith

theorem schur_nonneg' {K D : Matrix ι ι ℝ} {k : ι → ℝ} {c : ℝ} (h : (joint K k c).PosSemidef)
    (hD : D.PosSemidef) (hp : (K + D).PosDef) :
    0 ≤ c - k ⬝ᵥ ((K + D)⁻¹ *ᵥ k) := by
  set A := K + D with hA
  set x := A⁻¹ *ᵥ k with hx
  have h1 := joint_quad h x
  have h2 := variational_eq (det_ne_zero hp) k
  rw [← hx] at h2
  have h3 : x ⬝ᵥ (A *ᵥ x) = x ⬝ᵥ (K *ᵥ x) + x ⬝ᵥ (D *ᵥ x) := by
    rw [hA, add_mulVec, dotProduct_add]
  have h4 : 0 ≤ x ⬝ᵥ (D *ᵥ x) := by
    have := hD.dotProduct_mulVec_nonneg x
    simpa using this
  linarith

theorem joint_sub_psd {K : Matrix ι ι ℝ} {k : ι → ℝ} {c : ℝ} (h : (joint K k c).PosSemidef) :
    K.PosSemidef := by
  have := h.submatrix Sum.inl
  exact this

/-- Strict version of the Schur complement bound. -/
theorem schur_pos {K D : Matrix ι ι ℝ} {k : ι → ℝ} {c : ℝ} (hk : k ≠ 0)
    (h : (joint K k c).PosSemidef) (hD : D.PosDef) (hp : (K + D).PosDef) : 0 < c - k ⬝ᵥ ((K + D)⁻¹ *ᵥ k) := by
  set A := K + D with hA
  set x := A⁻¹ *ᵥ k with hx
  have hx0 : x ≠ 0 := by
    intro h0
    apply hk
    rw [← mulVec_inv_cancel (det_ne_zero hp) k, ← hx, h0, mulVec_zero]
  have h1 := joint_quad h x
  have h2 := variational_eq (det_ne_zero hp) k
  rw [← hx] at h2
  have h3 : x ⬝ᵥ (A *ᵥ x) = x ⬝ᵥ (K *ᵥ x) + x ⬝ᵥ (D *ᵥ x) := by rw [hA, add_mulVec, dotProduct_add]
  have h4 : 0 < x ⬝ᵥ (D *ᵥ x) := by simpa using hD.dotProduct_mulVec_pos hx0
  linarith

theorem joint_schur_pos {K : Matrix ι ι ℝ} {k : ι → ℝ} {c : ℝ}
    (h : (joint K k c).PosDef) (hp : K.PosDef) : 0 < c - k ⬝ᵥ (K⁻¹ *ᵥ k) := by
  set x := K⁻¹ *ᵥ k with hx
  have hne : (Sum.elim x fun _ : Unit => (-1 : ℝ)) ≠ 0 := fun h0 => by
    have := congrFun h0 (.inr ())
    simp at this
  have h1 := h.dotProduct_mulVec_pos hne
  have h2 := variational_eq (det_ne_zero hp) k
  rw [← hx] at h2
  have h0 := joint_quad_eq K k c x
  simp only [star_trivial] at h1
  rw [h0] at h1
  linarith

/-- permuting the neighbours -/
theorem quad_perm (K : Matrix ι ι ℝ) (k y : ι → ℝ) (σ : Equiv.Perm ι) :
    (k ∘ σ) ⬝ᵥ ((K.submatrix σ σ)⁻¹ *ᵥ (y ∘ σ)) = k ⬝ᵥ (K⁻¹ *ᵥ y) := by
  rw [inv_submatrix_equiv, submatrix_mulVec_equiv]
  have : (y ∘ σ) ∘ σ.symm = y := by ext; simp
  rw [this]
  exact comp_equiv_dotProduct_comp_equiv _ _ σ

end Kriging
