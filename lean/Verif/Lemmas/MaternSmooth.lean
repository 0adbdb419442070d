import Verif.Lemmas.MaternSmall
import Verif.Lemmas.Bessel
import Mathlib.Analysis.Complex.CauchyIntegral
import Mathlib.Analysis.Calculus.ContDiff.RestrictScalars
import Mathlib.Analysis.Complex.RealDeriv
import Mathlib.Analysis.Calculus.ParametricIntegral
import Mathlib.Analysis.Calculus.ContDiff.Operations
import Mathlib.Analysis.SpecialFunctions.Log.Deriv
import Mathlib.Analysis.SpecialFunctions.Pow.Deriv

/-! # The Bessel integral is a smooth function of its order and its argument -/

namespace MuyGPyS.Matern
open Real Set Filter MeasureTheory
open scoped Topology ContDiff

/-- `(log u)^p u^s e^(-u - b/u)`, for `x = (s, b)`. -/
noncomputable def kInt (p : ℕ) (x : ℝ × ℝ) (u : ℝ) : ℝ := log u ^ p * (u ^ x.1 * exp (-u - x.2 / u))

noncomputable def kFun (p : ℕ) (x : ℝ × ℝ) : ℝ := ∫ u in Ioi (0 : ℝ), kInt p x u

theorem kInt_cont (p : ℕ) (x : ℝ × ℝ) : ContinuousOn (kInt p x) (Ioi 0) := by
  unfold kInt
  refine ContinuousOn.mul ((continuousOn_log.mono fun u (hu : 0 < u) => hu.ne').pow p) (ContinuousOn.mul (fun u hu => ?_) ?_)
  · exact (continuousAt_rpow_const u _ (.inl (ne_of_gt hu))).continuousWithinAt
  · refine continuous_exp.comp_continuousOn (ContinuousOn.sub continuousOn_neg ?_)
    exact continuousOn_const.div continuousOn_id fun u hu => ne_of_gt hu

theorem kInt_meas (p : ℕ) (x : ℝ × ℝ) : AEStronglyMeasurable (kInt p x) (volume.restrict (Ioi 0)) :=
  (kInt_cont p x).aestronglyMeasurable measurableSet_Ioi

/-- `u^s e^(-u - b/u)` is integrable for every real `s` when `b > 0`. -/
theorem kInt_zero_integrable (s : ℝ) {b : ℝ} (hb : 0 < b) : IntegrableOn (kInt 0 (s, b)) (Ioi 0) := by
  obtain ⟨m, hm⟩ := exists_nat_gt (-s)
  have hg : IntegrableOn (fun u : ℝ => (m.factorial / b ^ m) * (exp (-u) * u ^ ((s + m + 1) - 1))) (Ioi 0) :=
    (GammaIntegral_convergent (by linarith)).const_mul _
  refine hg.mono' (kInt_meas _ _) ?_
  filter_upwards [ae_restrict_mem measurableSet_Ioi] with u hu
  have hu : 0 < u := hu
  have h0 : 0 ≤ kInt 0 (s, b) u := by
    unfold kInt; have := rpow_pos_of_pos hu s; positivity
  rw [norm_of_nonneg h0]
  have h1 := pow_div_factorial_le_exp (b / u) (by positivity) m
  have h2 : exp (-(b / u)) ≤ m.factorial / b ^ m * u ^ m := by
    rw [exp_neg]
    rw [div_pow, div_div] at h1
    have hpos : 0 < b ^ m / (u ^ m * m.factorial) := by positivity
    calc (exp (b / u))⁻¹ ≤ (b ^ m / (u ^ m * m.factorial))⁻¹ := inv_anti₀ hpos h1
      _ = m.factorial / b ^ m * u ^ m := by rw [inv_div]; ring
  have h3 : u ^ (s + m + 1 - 1) = u ^ s * u ^ m := by
    rw [show s + m + 1 - 1 = s + m by ring, rpow_add hu, rpow_natCast]
  unfold kInt
  simp only [pow_zero, one_mul]
  rw [h3, sub_eq_add_neg, exp_add]
  have hs := rpow_pos_of_pos hu s
  calc u ^ s * (exp (-u) * exp (-(b / u))) ≤ u ^ s * (exp (-u) * (m.factorial / b ^ m * u ^ m)) := by gcongr
    _ = _ := by ring

theorem log_pow_le (p : ℕ) {u : ℝ} (hu : 0 < u) : |log u| ^ p ≤ p.factorial * (u + u⁻¹) := by
  have h1 := pow_div_factorial_le_exp |log u| (abs_nonneg _) p
  have h2 : exp |log u| ≤ u + u⁻¹ := by
    rcases abs_cases (log u) with ⟨h, _⟩ | ⟨h, _⟩
    · rw [h, exp_log hu]; have := inv_pos.2 hu; linarith
    · rw [h, exp_neg, exp_log hu]; linarith
  have hf : (0 : ℝ) < p.factorial := by exact_mod_cast p.factorial_pos
  rw [div_le_iff₀ hf] at h1
  nlinarith [h1, h2]

/-- A bound of the integrand, uniform near a point. -/
noncomputable def kBound (p : ℕ) (s b u : ℝ) : ℝ :=
  p.factorial * (kInt 0 (s + 2, b) u + 2 * kInt 0 (s, b) u + kInt 0 (s - 2, b) u)

theorem kBound_integrable (p : ℕ) (s : ℝ) {b : ℝ} (hb : 0 < b) : IntegrableOn (kBound p s b) (Ioi 0) := by
  unfold kBound
  exact (((kInt_zero_integrable _ hb).add ((kInt_zero_integrable _ hb).const_mul 2)).add (kInt_zero_integrable _ hb)).const_mul _

theorem kInt_le (p : ℕ) {s b : ℝ} {x : ℝ × ℝ} (h1 : |x.1 - s| ≤ 1) (h2 : b ≤ x.2) {u : ℝ} (hu : 0 < u) :
    |kInt p x u| ≤ kBound p s b u := by
  have hpow : u ^ x.1 ≤ u ^ (s + 1) + u ^ (s - 1) := by
    have ha := abs_le.1 h1
    have p1 := rpow_pos_of_pos hu (s + 1)
    have p2 := rpow_pos_of_pos hu (s - 1)
    rcases le_total 1 u with h | h
    · have := rpow_le_rpow_of_exponent_le h (show x.1 ≤ s + 1 by linarith); linarith
    · have := rpow_le_rpow_of_exponent_ge hu h (show s - 1 ≤ x.1 by linarith); linarith
  have hexp : exp (-u - x.2 / u) ≤ exp (-u - b / u) := by
    refine exp_le_exp.2 ?_
    have : b / u ≤ x.2 / u := by gcongr
    linarith
  have e1 : u ^ (s + 2) = u ^ s * u ^ 2 := by rw [rpow_add hu, rpow_ofNat]
  have e2 : u ^ (s - 2) = u ^ s * (u⁻¹) ^ 2 := by rw [rpow_sub hu, rpow_ofNat, div_eq_mul_inv, inv_pow]
  have e3 : u ^ (s + 1) = u ^ s * u := by rw [rpow_add hu, rpow_one]
  have e4 : u ^ (s - 1) = u ^ s * u⁻¹ := by rw [rpow_sub hu, rpow_one, div_eq_mul_inv]
  have hx := rpow_pos_of_pos hu x.1
  unfold kInt kBound kInt
  simp only [pow_zero, one_mul]
  rw [abs_mul, abs_pow, abs_of_pos (mul_pos hx (exp_pos _))]
  have hi : u * u⁻¹ = 1 := mul_inv_cancel₀ hu.ne'
  calc |log u| ^ p * (u ^ x.1 * exp (-u - x.2 / u))
      ≤ (p.factorial * (u + u⁻¹)) * ((u ^ (s + 1) + u ^ (s - 1)) * exp (-u - b / u)) := by
        gcongr
        exact log_pow_le p hu
    _ = _ := by
        rw [e1, e2, e3, e4]
        linear_combination (2 * p.factorial * u ^ s * exp (-u - b / u)) * hi

theorem kInt_integrable (p : ℕ) (s : ℝ) {b : ℝ} (hb : 0 < b) : IntegrableOn (kInt p (s, b)) (Ioi 0) := by
  refine (kBound_integrable p s hb).mono' (kInt_meas _ _) ?_
  filter_upwards [ae_restrict_mem measurableSet_Ioi] with u hu
  exact kInt_le p (x := (s, b)) (by simp) le_rfl hu

/-- The derivative of the integrand in `(s, b)`. -/
noncomputable def kInt' (p : ℕ) (x : ℝ × ℝ) (u : ℝ) : ℝ × ℝ →L[ℝ] ℝ :=
  kInt (p + 1) x u • ContinuousLinearMap.fst ℝ ℝ ℝ - kInt p (x.1 - 1, x.2) u • ContinuousLinearMap.snd ℝ ℝ ℝ

theorem kInt_deriv (p : ℕ) (x : ℝ × ℝ) {u : ℝ} (hu : 0 < u) : HasFDerivAt (fun x => kInt p x u) (kInt' p x u) x := by
  have h1 : HasFDerivAt (fun x : ℝ × ℝ => u ^ x.1) ((u ^ x.1 * log u) • ContinuousLinearMap.fst ℝ ℝ ℝ) x :=
    ((hasStrictDerivAt_const_rpow hu x.1).hasDerivAt.hasFDerivAt.comp x hasFDerivAt_fst).congr_fderiv (by ext <;> simp [mul_comm])
  have h2 : HasFDerivAt (fun x : ℝ × ℝ => exp (-u - x.2 / u)) ((-(exp (-u - x.2 / u) / u)) • ContinuousLinearMap.snd ℝ ℝ ℝ) x := by
    have h0 : HasDerivAt (fun b : ℝ => exp (-u - b / u)) (exp (-u - x.2 / u) * (-(1 / u))) x.2 :=
      (((hasDerivAt_id x.2).div_const u).const_sub (-u)).exp
    exact (h0.hasFDerivAt.comp x hasFDerivAt_snd).congr_fderiv (by ext <;> simp; ring)
  have h3 := (h1.mul h2).const_mul (log u ^ p)
  refine h3.congr_fderiv ?_
  have e4 : u ^ (x.1 - 1) = u ^ x.1 / u := by rw [rpow_sub hu, rpow_one]
  unfold kInt' kInt
  simp only [e4]
  ext
  · simp; ring
  · simp; ring_nf; simp

theorem kFun_deriv (p : ℕ) (x : ℝ × ℝ) (hx : 0 < x.2) :
    HasFDerivAt (kFun p) (kFun (p + 1) x • ContinuousLinearMap.fst ℝ ℝ ℝ - kFun p (x.1 - 1, x.2) • ContinuousLinearMap.snd ℝ ℝ ℝ) x := by
  have hb : 0 < x.2 / 2 := by linarith
  have hs : {y : ℝ × ℝ | |y.1 - x.1| ≤ 1 ∧ x.2 / 2 ≤ y.2} ∈ 𝓝 x := by
    have h1 : ∀ᶠ y : ℝ × ℝ in 𝓝 x, |y.1 - x.1| < 1 := by
      have : Continuous fun y : ℝ × ℝ => |y.1 - x.1| := by fun_prop
      exact this.continuousAt.eventually_lt continuousAt_const (by simp)
    have h2 : ∀ᶠ y : ℝ × ℝ in 𝓝 x, x.2 / 2 < y.2 :=
      continuousAt_const.eventually_lt continuous_snd.continuousAt (by linarith)
    filter_upwards [h1, h2] with y a b using ⟨a.le, b.le⟩
  have key := hasFDerivAt_integral_of_dominated_of_fderiv_le (μ := volume.restrict (Ioi (0 : ℝ))) (F := kInt p) (F' := kInt' p)
    (bound := fun u => kBound (p + 1) x.1 (x.2 / 2) u + kBound p (x.1 - 1) (x.2 / 2) u) hs
    (.of_forall fun y => kInt_meas p y) (kInt_integrable p x.1 hx) ?_ ?_
    ((kBound_integrable (p + 1) x.1 hb).add (kBound_integrable p (x.1 - 1) hb)) ?_
  · refine key.congr_fderiv ?_
    unfold kInt' kFun
    have i1 : Integrable (kInt (p + 1) x) (volume.restrict (Ioi 0)) := kInt_integrable (p + 1) x.1 hx
    have i2 : Integrable (kInt p (x.1 - 1, x.2)) (volume.restrict (Ioi 0)) := kInt_integrable p (x.1 - 1) hx
    rw [integral_sub (i1.smul_const _) (i2.smul_const _), integral_smul_const, integral_smul_const]
  · unfold kInt'
    exact ((kInt_meas _ _).smul_const _).sub ((kInt_meas _ _).smul_const _)
  · filter_upwards [ae_restrict_mem measurableSet_Ioi] with u hu y hy
    unfold kInt'
    refine (norm_sub_le _ _).trans (add_le_add ?_ ?_)
    · rw [norm_smul, norm_eq_abs]
      have : ‖ContinuousLinearMap.fst ℝ ℝ ℝ‖ ≤ 1 := ContinuousLinearMap.opNorm_le_bound _ zero_le_one fun z => by
        rw [one_mul]; exact norm_fst_le z
      calc _ ≤ |kInt (p + 1) y u| * 1 := by gcongr
        _ ≤ _ := by rw [mul_one]; exact kInt_le _ hy.1 hy.2 hu
    · rw [norm_smul, norm_eq_abs]
      have : ‖ContinuousLinearMap.snd ℝ ℝ ℝ‖ ≤ 1 := ContinuousLinearMap.opNorm_le_bound _ zero_le_one fun z => by
        rw [one_mul]; exact norm_snd_le z
      calc _ ≤ |kInt p (y.1 - 1, y.2) u| * 1 := by gcongr
        _ ≤ _ := by
          rw [mul_one]
          exact kInt_le (x := (y.1 - 1, y.2)) _ (by simpa using hy.1) hy.2 hu
  · filter_upwards [ae_restrict_mem measurableSet_Ioi] with u hu y hy
    exact kInt_deriv p y hu

/-- The integral is infinitely differentiable in `(s, b)` for `b > 0`. -/
theorem kFun_smooth (p : ℕ) : ContDiffOn ℝ ∞ (kFun p) {x : ℝ × ℝ | 0 < x.2} := by
  have hopen : IsOpen {x : ℝ × ℝ | 0 < x.2} := isOpen_lt continuous_const continuous_snd
  rw [contDiffOn_infty]
  intro n
  induction n generalizing p with
  | zero =>
    rw [Nat.cast_zero, contDiffOn_zero]
    exact fun x hx => (kFun_deriv p x hx).continuousAt.continuousWithinAt
  | succ n ih =>
    rw [Nat.cast_succ, contDiffOn_succ_iff_fderiv_of_isOpen hopen]
    refine ⟨fun x hx => (kFun_deriv p x hx).differentiableAt.differentiableWithinAt, by simp, ?_⟩
    have heq : ∀ x ∈ {x : ℝ × ℝ | 0 < x.2}, fderiv ℝ (kFun p) x =
        kFun (p + 1) x • ContinuousLinearMap.fst ℝ ℝ ℝ - kFun p (x.1 - 1, x.2) • ContinuousLinearMap.snd ℝ ℝ ℝ :=
      fun x hx => (kFun_deriv p x hx).fderiv
    refine ContDiffOn.congr ?_ heq
    have hg : ContDiff ℝ n (fun x : ℝ × ℝ => (x.1 - 1, x.2)) := by fun_prop
    have h2 : ContDiffOn ℝ n (fun x : ℝ × ℝ => kFun p (x.1 - 1, x.2)) {x : ℝ × ℝ | 0 < x.2} :=
      (ih p).comp hg.contDiffOn fun x hx => hx
    exact ((ih (p + 1)).smul contDiffOn_const).sub (h2.smul contDiffOn_const)

/-- The gamma function is infinitely differentiable on the positive reals. -/
theorem gamma_smooth : ContDiffOn ℝ ∞ Gamma (Ioi 0) := by
  have hopen : IsOpen {z : ℂ | 0 < z.re} := isOpen_lt continuous_const Complex.continuous_re
  have hd : DifferentiableOn ℂ Complex.Gamma {z : ℂ | 0 < z.re} := fun z hz =>
    (Complex.differentiableAt_Gamma z fun m h => by
      rw [h] at hz
      simp only [mem_setOf_eq, Complex.neg_re, Complex.natCast_re] at hz
      have : (0 : ℝ) ≤ m := m.cast_nonneg
      linarith).differentiableWithinAt
  have hc : ContDiffOn ℝ ∞ Complex.Gamma {z : ℂ | 0 < z.re} := (hd.contDiffOn hopen).restrict_scalars ℝ
  have h1 : ContDiffOn ℝ ∞ (fun x : ℝ => Complex.Gamma (x : ℂ)) (Ioi 0) :=
    hc.comp Complex.ofRealCLM.contDiff.contDiffOn fun x hx => by simpa using hx
  exact Complex.reCLM.contDiff.comp_contDiffOn h1

/-- The Matérn correlation as a quotient of the integral and the gamma function. -/
theorem maternCorrelation_kFun {ν d : ℝ} (hν : 0 < ν) (hd : 0 < d) :
    maternCorrelation ν d = kFun 0 (ν - 1, ν * d ^ 2 / 2) / Gamma ν := by
  rw [maternCorrelation_mix hν hd, mix, kFun]
  congr 2
  funext u
  unfold mixInt kInt
  have : (√(2 * ν) * d / 2) ^ 2 = ν * d ^ 2 / 2 := by
    rw [div_pow, mul_pow, sq_sqrt (by positivity)]; ring
  rw [this]
  simp

/-- The Matérn correlation is an infinitely differentiable function of the smoothness and the distance together. -/
theorem maternCorrelation_smooth : ContDiffOn ℝ ∞ (fun x : ℝ × ℝ => maternCorrelation x.1 x.2) {x | 0 < x.1 ∧ 0 < x.2} := by
  have h1 : ContDiffOn ℝ ∞ (fun x : ℝ × ℝ => kFun 0 (x.1 - 1, x.1 * x.2 ^ 2 / 2) / Gamma x.1) {x | 0 < x.1 ∧ 0 < x.2} := by
    refine ContDiffOn.div ?_ ?_ fun x hx => (Gamma_pos_of_pos hx.1).ne'
    · have hg : ContDiff ℝ ∞ (fun x : ℝ × ℝ => (x.1 - 1, x.1 * x.2 ^ 2 / 2)) := by fun_prop
      exact (kFun_smooth 0).comp hg.contDiffOn fun x hx => by
        have := hx.1; have := hx.2
        show 0 < x.1 * x.2 ^ 2 / 2
        positivity
    · exact gamma_smooth.comp contDiff_fst.contDiffOn fun x hx => hx.1
  exact h1.congr fun x hx => maternCorrelation_kFun hx.1 hx.2

end MuyGPyS.Matern
