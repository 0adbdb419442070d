import Verif.Lemmas.Gaussian
import Mathlib.MeasureTheory.Measure.CharacteristicFunction.TaylorExpansion
import Mathlib.Probability.Distributions.Gaussian.Real

/-! # Covariances of derivatives of a Gaussian process are positive semidefinite -/

namespace MuyGPyS
open Matrix MeasureTheory ProbabilityTheory Complex

variable {ι : Type*} [Fintype ι]

/-- The one-dimensional Gaussian `exp (-x² / (2ℓ))`. -/
noncomputable def gauss1 (ℓ x : ℝ) : ℝ := Real.exp (-(x ^ 2) / (2 * ℓ))

theorem gauss1_contDiff (ℓ : ℝ) : ContDiff ℝ ⊤ (gauss1 ℓ) := by
  unfold gauss1
  fun_prop

theorem iteratedDeriv_ofReal (f : ℝ → ℝ) (hf : ContDiff ℝ ⊤ f) (n : ℕ) (t : ℝ) :
    iteratedDeriv n (fun x => (f x : ℂ)) t = ((iteratedDeriv n f t : ℝ) : ℂ) := by
  induction n generalizing t with
  | zero => simp
  | succ n ih =>
    rw [iteratedDeriv_succ, iteratedDeriv_succ]
    have : iteratedDeriv n (fun x => (f x : ℂ)) = fun x => ((iteratedDeriv n f x : ℝ) : ℂ) := funext ih
    rw [this]
    have hd : DifferentiableAt ℝ (iteratedDeriv n f) t :=
      (hf.differentiable_iteratedDeriv n (WithTop.coe_lt_top (n : ℕ∞))) t
    exact hd.hasDerivAt.ofReal_comp.deriv

/-- The Fourier moments of the Gaussian measure with variance `1/ℓ`. -/
theorem gauss1_moment (ℓ : ℝ) (hℓ : 0 < ℓ) (n : ℕ) (t : ℝ) :
    ∫ x : ℝ, (x : ℂ) ^ n * cexp (t * x * I) ∂(gaussianReal 0 ℓ⁻¹.toNNReal) =
      (-I) ^ n * (iteratedDeriv n (gauss1 ℓ) t : ℝ) := by
  have h := iteratedDeriv_charFun (μ := gaussianReal 0 ℓ⁻¹.toNNReal) (n := n) (t := t)
    (memLp_id_gaussianReal' _ (by simp))
  have hc : charFun (gaussianReal 0 ℓ⁻¹.toNNReal) = fun x => ((gauss1 ℓ x : ℝ) : ℂ) := by
    funext x
    rw [charFun_gaussianReal, gauss1]
    push_cast
    congr 1
    simp only [mul_zero, zero_mul, zero_sub]
    have : (ℓ : ℂ) ≠ 0 := by exact_mod_cast hℓ.ne'
    have h' : ((ℓ⁻¹.toNNReal : ℝ) : ℂ) = (ℓ : ℂ)⁻¹ := by
      rw [Real.coe_toNNReal _ (by positivity)]; push_cast; rfl
    rw [h']
    field_simp
  rw [hc, iteratedDeriv_ofReal _ (gauss1_contDiff ℓ)] at h
  rw [h, ← mul_assoc, ← mul_pow]
  simp

theorem gauss1_moment_integrable (v : NNReal) (n : ℕ) (t : ℝ) :
    Integrable (fun x : ℝ => (x : ℂ) ^ n * cexp (t * x * I)) (gaussianReal 0 v) := by
  have h1 : Integrable (fun x : ℝ => ‖(id x : ℝ)‖ ^ n) (gaussianReal 0 v) :=
    (memLp_id_gaussianReal' (μ := 0) (v := v) n (by simp)).integrable_norm_pow'
  refine Integrable.mono' h1 (by fun_prop) (Filter.Eventually.of_forall fun x => ?_)
  rw [norm_mul, norm_pow]
  have : ‖cexp (t * x * I)‖ = 1 := by
    have := Complex.norm_exp_ofReal_mul_I (t * x)
    push_cast at this
    exact this
  rw [this]
  simp

/-- The covariance matrix of the derivatives of orders `e i` at the points `x i` of a process with
Gaussian covariance function is positive semidefinite. -/
theorem gaussJet_psd (ℓ : ℝ) (hℓ : 0 < ℓ) (e : ι → ℕ) (x : ι → ℝ) :
    (Matrix.of fun i j => (-1) ^ e j * iteratedDeriv (e i + e j) (gauss1 ℓ) (x i - x j)).PosSemidef := by
  set μ := gaussianReal 0 ℓ⁻¹.toNNReal with hμ
  -- the covariance is the integral of a rank-one kernel
  let z : ι → ℝ → ℂ := fun i w => (I * w) ^ e i * cexp (x i * w * I)
  have hzz : ∀ i j w, z i w * (starRingEnd ℂ) (z j w) =
      (I ^ e i * (-I) ^ e j) * ((w : ℂ) ^ (e i + e j) * cexp (((x i - x j : ℝ) : ℂ) * w * I)) := by
    intro i j w
    simp only [z, map_mul, map_pow, conj_I, conj_ofReal, ← Complex.exp_conj, mul_pow, pow_add]
    push_cast
    rw [sub_mul, sub_mul, sub_eq_add_neg, Complex.exp_add]
    ring_nf
  have hint : ∀ i j, Integrable (fun w => z i w * (starRingEnd ℂ) (z j w)) μ := by
    intro i j
    simp_rw [hzz]
    exact (gauss1_moment_integrable _ _ _).const_mul _
  have hval : ∀ i j, ∫ w, z i w * (starRingEnd ℂ) (z j w) ∂μ =
      (((-1) ^ e j * iteratedDeriv (e i + e j) (gauss1 ℓ) (x i - x j) : ℝ) : ℂ) := by
    intro i j
    simp_rw [hzz]
    rw [integral_const_mul, gauss1_moment ℓ hℓ]
    push_cast
    rw [← mul_assoc]
    congr 1
    rw [pow_add, mul_comm (I ^ e i), mul_assoc, ← mul_assoc (I ^ e i), ← mul_pow, ← mul_comm, mul_assoc, ← mul_pow]
    simp
  have hquad : ∀ v : ι → ℝ, 0 ≤ ∑ i, ∑ j, v i * ((-1) ^ e j * iteratedDeriv (e i + e j) (gauss1 ℓ) (x i - x j)) * v j := by
    intro v
    have h1 : ((∑ i, ∑ j, v i * ((-1) ^ e j * iteratedDeriv (e i + e j) (gauss1 ℓ) (x i - x j)) * v j : ℝ) : ℂ) =
        ∫ w, ((‖∑ i, (v i : ℂ) * z i w‖ ^ 2 : ℝ) : ℂ) ∂μ := by
      have h2 : ∀ w, ((‖∑ i, (v i : ℂ) * z i w‖ ^ 2 : ℝ) : ℂ) =
          ∑ i, ∑ j, ((v i : ℂ) * v j) * (z i w * (starRingEnd ℂ) (z j w)) := by
        intro w
        push_cast
        rw [← Complex.mul_conj', map_sum, Finset.sum_mul_sum]
        refine Finset.sum_congr rfl fun i _ => Finset.sum_congr rfl fun j _ => ?_
        rw [map_mul, conj_ofReal]; ring
      simp_rw [h2]
      rw [integral_finsetSum _ fun i _ => integrable_finsetSum _ fun j _ => (hint i j).const_mul _]
      push_cast
      refine Finset.sum_congr rfl fun i _ => ?_
      rw [integral_finsetSum _ fun j _ => (hint i j).const_mul _]
      refine Finset.sum_congr rfl fun j _ => ?_
      rw [integral_const_mul, hval]
      push_cast
      ring
    rw [integral_complex_ofReal] at h1
    have h3 : (∑ i, ∑ j, v i * ((-1) ^ e j * iteratedDeriv (e i + e j) (gauss1 ℓ) (x i - x j)) * v j : ℝ) =
        ∫ w, ‖∑ i, (v i : ℂ) * z i w‖ ^ 2 ∂μ := by exact_mod_cast h1
    rw [h3]
    exact integral_nonneg fun w => by positivity
  rw [psd_iff]
  refine ⟨fun i j => ?_, hquad⟩
  have h := congrArg (starRingEnd ℂ) (hval i j)
  rw [← integral_conj, conj_ofReal] at h
  simp_rw [map_mul, Complex.conj_conj, mul_comm ((starRingEnd ℂ) (z i _))] at h
  rw [hval j i] at h
  simp only [of_apply]
  exact_mod_cast h.symm

end MuyGPyS
