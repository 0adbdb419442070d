import Mathlib.Probability.Distributions.Gaussian.HasGaussianLaw.Independence
import Mathlib.Probability.Kernel.CondDistrib
import Verif.Spec.Kriging

/-!
# Conditioning jointly Gaussian variables (Mathlib-level lemmas, no model)
-/

namespace MuyGPyS
open Matrix MeasureTheory ProbabilityTheory

variable {Ω : Type*} [MeasurableSpace Ω] {P : Measure Ω} {n : Nat}

theorem krigingMean_sum (K : Matrix (Fin n) (Fin n) ℝ) (k y : Fin n → ℝ) :
    Spec.krigingMean K k y = ∑ i, (k ᵥ* K⁻¹) i * y i := by
  unfold Spec.krigingMean
  rw [dotProduct_mulVec]; rfl

/-- Subtracting the kriging mean leaves an error uncorrelated with the observations, whose variance is the kriging variance. Only second
moments matter. -/
theorem kriging_residual [IsProbabilityMeasure P] {F : Fin n → Ω → ℝ} {G : Ω → ℝ} (mF : ∀ i, MemLp (F i) 2 P) (mG : MemLp G 2 P)
    (K : Matrix (Fin n) (Fin n) ℝ) (k : Fin n → ℝ) (c s : ℝ) (hFF : ∀ i j, cov[F i, F j; P] = s * K i j)
    (hFG : ∀ i, cov[F i, G; P] = s * k i) (hGG : Var[G; P] = s * c) (hdet : K.det ≠ 0) :
    (∀ j, cov[fun ω => G ω - Spec.krigingMean K k (fun i => F i ω), F j; P] = 0) ∧
      Var[fun ω => G ω - Spec.krigingMean K k (fun i => F i ω); P] = s * Spec.krigingVar c K k := by
  set w := k ᵥ* K⁻¹ with hw
  have hwK : w ᵥ* K = k := by
    rw [hw, vecMul_vecMul, nonsing_inv_mul _ (isUnit_iff_ne_zero.mpr hdet), vecMul_one]
  have mW : MemLp (fun ω => ∑ i, w i * F i ω) 2 P := memLp_finsetSum _ fun i _ => (mF i).const_mul _
  have cWF : ∀ j, cov[fun ω => ∑ i, w i * F i ω, F j; P] = s * k j := fun j => by
    rw [covariance_fun_sum_left (fun i => (mF i).const_mul _) (mF j)]
    simp only [covariance_const_mul_left, hFF]
    rw [← congrFun hwK j, vecMul, dotProduct, Finset.mul_sum]
    exact Finset.sum_congr rfl fun i _ => by ring
  have cWG : cov[fun ω => ∑ i, w i * F i ω, G; P] = s * (w ⬝ᵥ k) := by
    rw [covariance_fun_sum_left (fun i => (mF i).const_mul _) mG]
    simp only [covariance_const_mul_left, hFG]
    rw [dotProduct, Finset.mul_sum]
    exact Finset.sum_congr rfl fun i _ => by ring
  have cWW : cov[fun ω => ∑ i, w i * F i ω, fun ω => ∑ i, w i * F i ω; P] = s * (w ⬝ᵥ k) := by
    rw [covariance_fun_sum_right (fun i => (mF i).const_mul _) mW]
    simp only [covariance_const_mul_right, cWF]
    rw [dotProduct, Finset.mul_sum]
    exact Finset.sum_congr rfl fun i _ => by ring
  have hR : (fun ω => G ω - Spec.krigingMean K k (fun i => F i ω)) = fun ω => G ω - ∑ i, w i * F i ω := by
    funext ω; rw [krigingMean_sum]
  rw [hR]
  constructor
  · intro j
    rw [covariance_fun_sub_left mG mW (mF j), cWF, covariance_comm, hFG, sub_self]
  · refine (covariance_self (mG.sub mW).aestronglyMeasurable.aemeasurable).symm.trans ?_
    have := covariance_fun_sub_fun_sub mG mW mG mW
    refine this.trans ?_
    rw [covariance_self mG.aestronglyMeasurable.aemeasurable, hGG, covariance_comm G, cWG, cWW]
    have : Spec.krigingVar c K k = c - w ⬝ᵥ k := by
      unfold Spec.krigingVar
      rw [dotProduct_mulVec]
    rw [this]; ring

/-- The posterior of one of several jointly Gaussian, centred variables, given the others: the kriging error is normal with the kriging
variance, independent of the observations; hence the conditional law of `G` is normal with the kriging mean and variance. -/
theorem gaussian_posterior {F : Fin n → Ω → ℝ} {G : Ω → ℝ} (hg : HasGaussianLaw (fun ω => (fun i => F i ω, G ω)) P)
    (zF : ∀ i, P[F i] = 0) (zG : P[G] = 0)
    (K : Matrix (Fin n) (Fin n) ℝ) (k : Fin n → ℝ) (c s : ℝ) (hFF : ∀ i j, cov[F i, F j; P] = s * K i j)
    (hFG : ∀ i, cov[F i, G; P] = s * k i) (hGG : Var[G; P] = s * c) (hdet : K.det ≠ 0) :
    0 ≤ s * Spec.krigingVar c K k ∧
    P.map (fun ω => G ω - Spec.krigingMean K k (fun i => F i ω)) = gaussianReal 0 (s * Spec.krigingVar c K k).toNNReal ∧
    IndepFun (fun ω i => F i ω) (fun ω => G ω - Spec.krigingMean K k (fun i => F i ω)) P := by
  have hP := hg.isProbabilityMeasure
  have mF : ∀ i, MemLp (F i) 2 P := fun i => (hg.fst.eval i).memLp_two
  have mG : MemLp G 2 P := hg.snd.memLp_two
  obtain ⟨h1, h2⟩ := kriging_residual mF mG K k c s hFF hFG hGG hdet
  set w := k ᵥ* K⁻¹ with hw
  have hR : (fun ω => G ω - Spec.krigingMean K k (fun i => F i ω)) = fun ω => G ω - ∑ i, w i * F i ω := by
    funext ω; rw [krigingMean_sum]
  rw [hR] at h1 h2 ⊢
  let S : (Fin n → ℝ) →L[ℝ] ℝ := ∑ i, w i • ContinuousLinearMap.proj (R := ℝ) (φ := fun _ : Fin n => ℝ) i
  have hS : ∀ y, S y = ∑ i, w i * y i := fun y => by simp [S]
  let L : (Fin n → ℝ) × ℝ →L[ℝ] ℝ := ContinuousLinearMap.snd ℝ _ _ - S.comp (ContinuousLinearMap.fst ℝ _ _)
  have hL : ∀ z, L z = z.2 - ∑ i, w i * z.1 i := fun z => by simp [L, hS]
  have gR : HasGaussianLaw (fun ω => G ω - ∑ i, w i * F i ω) P := by
    have := hg.map_fun L
    simpa only [hL] using this
  refine ⟨h2 ▸ variance_nonneg _ _, ?_, ?_⟩
  · rw [gR.map_eq_gaussianReal, h2]
    congr 1
    rw [integral_sub (mG.integrable one_le_two) (integrable_finsetSum _ fun i _ => ((mF i).integrable one_le_two).const_mul _),
      integral_finsetSum _ fun i _ => ((mF i).integrable one_le_two).const_mul _, zG]
    simp [integral_const_mul, zF]
  · have gp : HasGaussianLaw (fun ω => (fun i => F i ω, fun _ : Unit => G ω - ∑ i, w i * F i ω)) P := by
      have := hg.map_fun (ContinuousLinearMap.prod (ContinuousLinearMap.fst ℝ _ _) (ContinuousLinearMap.pi fun _ : Unit => L))
      simpa only [ContinuousLinearMap.prod_apply, ContinuousLinearMap.coe_fst', ContinuousLinearMap.coe_pi', hL] using this
    have := gp.indepFun_of_covariance_eval (X := F) (Y := fun _ : Unit => fun ω => G ω - ∑ i, w i * F i ω)
      fun i j => by rw [covariance_comm]; exact h1 i
    exact this.comp (φ := id) (ψ := fun z : Unit → ℝ => z ()) measurable_id (measurable_pi_apply _)

/-- An independent normal error around a function of the observations makes the conditional law normal around that function. -/
theorem condDistrib_of_indep [IsProbabilityMeasure P] {F : Ω → Fin n → ℝ} {G : Ω → ℝ} (aF : AEMeasurable F P) (aG : AEMeasurable G P)
    {g : (Fin n → ℝ) → ℝ} (hg : Measurable g) (v : NNReal)
    (hlaw : P.map (fun ω => G ω - g (F ω)) = gaussianReal 0 v) (hind : IndepFun F (fun ω => G ω - g (F ω)) P) :
    ∀ᵐ y ∂(P.map F), condDistrib G F P y = gaussianReal (g y) v := by
  have aR : AEMeasurable (fun ω => G ω - g (F ω)) P := aG.sub (hg.comp_aemeasurable aF)
  let κ : Kernel (Fin n → ℝ) ℝ :=
    ((Kernel.id ×ₖ Kernel.const (Fin n → ℝ) (gaussianReal 0 v)).map fun z => g z.1 + z.2)
  have hm : Measurable fun z : (Fin n → ℝ) × ℝ => g z.1 + z.2 := (hg.comp measurable_fst).add measurable_snd
  have hκ : ∀ y, κ y = gaussianReal (g y) v := fun y => by
    simp only [κ]
    rw [Kernel.map_apply _ hm, Kernel.prod_apply, Kernel.id_apply, Kernel.const_apply, Measure.dirac_prod,
      Measure.map_map hm measurable_prodMk_left]
    have := gaussianReal_map_const_add (μ := 0) (v := v) (g y)
    rw [zero_add] at this
    exact this
  have hfin : IsFiniteKernel κ := by
    refine ⟨⟨1, ENNReal.one_lt_top, fun y => ?_⟩⟩
    rw [hκ]; simp
  have key : P.map (fun ω => (F ω, G ω)) = P.map F ⊗ₘ κ := by
    have h1 : P.map (fun ω => (F ω, G ω - g (F ω))) = (P.map F).prod (gaussianReal 0 v) := by
      rw [← hlaw]; exact (indepFun_iff_map_prod_eq_prod_map_map aF aR).mp hind
    have h2 : P.map (fun ω => (F ω, G ω)) = (P.map (fun ω => (F ω, G ω - g (F ω)))).map fun z => (z.1, g z.1 + z.2) := by
      rw [AEMeasurable.map_map_of_aemeasurable (by fun_prop) (aF.prodMk aR)]
      congr 1; funext ω; simp
    rw [h2, h1]
    ext A hA
    have hpair : Measurable fun z : (Fin n → ℝ) × ℝ => (z.1, g z.1 + z.2) := by fun_prop
    have : IsProbabilityMeasure (P.map F) := Measure.isProbabilityMeasure_map aF
    rw [Measure.map_apply hpair hA, Measure.prod_apply (hpair hA), Measure.compProd_apply hA]
    refine lintegral_congr fun y => ?_
    rw [hκ]
    have := gaussianReal_map_const_add (μ := 0) (v := v) (g y)
    rw [zero_add] at this
    rw [← this, Measure.map_apply (measurable_const_add _) (measurable_prodMk_left hA)]
    rfl
  have := condDistrib_ae_eq_of_measure_eq_compProd F aG key
  filter_upwards [this] with y hy
  rw [hy, hκ]

/-- A centred error independent of the observations adds its mean square to that of any function of the observations. -/
theorem indep_pythagoras [IsProbabilityMeasure P] {F : Ω → Fin n → ℝ} {R : Ω → ℝ} (mR : MemLp R 2 P) (zR : P[R] = 0) (hi : IndepFun F R P)
    {h : (Fin n → ℝ) → ℝ} (hm : Measurable h) (mh : MemLp (fun ω => h (F ω)) 2 P) :
    ∫ ω, (R ω + h (F ω)) ^ 2 ∂P = ∫ ω, R ω ^ 2 ∂P + ∫ ω, h (F ω) ^ 2 ∂P := by
  have hi' : IndepFun (fun ω => h (F ω)) R P := hi.comp hm measurable_id
  have h0 : ∫ ω, h (F ω) * R ω ∂P = 0 := by
    have := hi'.integral_fun_mul_eq_mul_integral mh.aestronglyMeasurable mR.aestronglyMeasurable
    rw [this, zR, mul_zero]
  have hint : Integrable (fun ω => h (F ω) * R ω) P := mR.integrable_mul mh |>.congr (Filter.Eventually.of_forall fun ω => by simp [mul_comm])
  have e : ∀ ω, (R ω + h (F ω)) ^ 2 = R ω ^ 2 + 2 * (h (F ω) * R ω) + h (F ω) ^ 2 := fun ω => by ring
  simp only [e]
  have i12 : Integrable (fun ω => R ω ^ 2 + 2 * (h (F ω) * R ω)) P := mR.integrable_sq.add (hint.const_mul 2)
  rw [integral_add i12 mh.integrable_sq, integral_add mR.integrable_sq (hint.const_mul 2),
    integral_const_mul, h0, mul_zero, add_zero]

/-- For an even convex loss and an error with a symmetric law, no independent shift of the error lowers the expected loss. -/
theorem even_convex_optimal [IsProbabilityMeasure P] {R D : Ω → ℝ} (aR : AEMeasurable R P) (aD : AEMeasurable D P)
    (hsym : P.map R = P.map (fun ω => -R ω)) (hi : IndepFun D R P) {ℓ : ℝ → ℝ} (hℓ : Measurable ℓ) (heven : ∀ x, ℓ (-x) = ℓ x)
    (hconv : ConvexOn ℝ Set.univ ℓ) (i1 : Integrable (fun ω => ℓ (R ω)) P) (i2 : Integrable (fun ω => ℓ (R ω + D ω)) P) :
    ∫ ω, ℓ (R ω) ∂P ≤ ∫ ω, ℓ (R ω + D ω) ∂P := by
  have hpair : P.map (fun ω => (D ω, R ω)) = P.map (fun ω => (D ω, -R ω)) := by
    have aN : AEMeasurable (fun ω => -R ω) P := aR.neg
    have hn : IndepFun D (fun ω => -R ω) P := hi.comp measurable_id measurable_neg
    rw [(indepFun_iff_map_prod_eq_prod_map_map aD aR).mp hi, (indepFun_iff_map_prod_eq_prod_map_map aD aN).mp hn, hsym]
  have hm : Measurable fun z : ℝ × ℝ => ℓ (z.2 + z.1) := by fun_prop
  have e1 : ∀ T : Ω → ℝ, AEMeasurable T P → ∫ ω, ℓ (T ω + D ω) ∂P = ∫ z, ℓ (z.2 + z.1) ∂(P.map fun ω => (D ω, T ω)) := fun T aT => by
    rw [integral_map (aD.prodMk aT) hm.aestronglyMeasurable]
  have h2 : ∫ ω, ℓ (-R ω + D ω) ∂P = ∫ ω, ℓ (R ω + D ω) ∂P := by
    rw [e1 (fun ω => -R ω) aR.neg, e1 R aR, hpair]
  have i3 : Integrable (fun ω => ℓ (-R ω + D ω)) P := by
    have := (integrable_map_measure (μ := P) (f := fun ω => (D ω, R ω)) (g := fun z : ℝ × ℝ => ℓ (z.2 + z.1))
      hm.aestronglyMeasurable (aD.prodMk aR)).mpr i2
    rw [hpair] at this
    exact (integrable_map_measure hm.aestronglyMeasurable (aD.prodMk aR.neg)).mp this
  have hpt : ∀ ω, ℓ (R ω) ≤ (ℓ (R ω + D ω) + ℓ (-R ω + D ω)) / 2 := fun ω => by
    have h := hconv.2
    have := h (Set.mem_univ (R ω + D ω)) (Set.mem_univ (R ω - D ω)) (show (0 : ℝ) ≤ 1 / 2 by norm_num)
      (show (0 : ℝ) ≤ 1 / 2 by norm_num) (by norm_num)
    simp only [smul_eq_mul] at this
    rw [show 1 / 2 * (R ω + D ω) + 1 / 2 * (R ω - D ω) = R ω by ring, ← heven (R ω - D ω), show -(R ω - D ω) = -R ω + D ω by ring] at this
    linarith
  calc ∫ ω, ℓ (R ω) ∂P ≤ ∫ ω, (ℓ (R ω + D ω) + ℓ (-R ω + D ω)) / 2 ∂P := integral_mono i1 ((i2.add i3).div_const 2) hpt
    _ = ∫ ω, ℓ (R ω + D ω) ∂P := by
      rw [integral_div, integral_add i2 i3, h2]; ring

end MuyGPyS
