import Verif.Lemmas.Gaussian
import Mathlib.Analysis.SpecialFunctions.Gamma.Basic
import Mathlib.Analysis.SpecialFunctions.Gaussian.GaussianIntegral
import Mathlib.MeasureTheory.Integral.IntegralEqImproper
import Mathlib.Analysis.SpecialFunctions.Sqrt

/-!
# Matérn kernels as mixtures of Gaussian kernels

`∫₀^∞ u^(ν-1) exp (-u - a²/u) du` and its closed forms for `ν = 1/2, 3/2, 5/2`.
-/

namespace MuyGPyS.Matern
open MeasureTheory Set Filter Topology Real

/-- The fundamental theorem of calculus on `(0, ∞)` for a function with limits at both ends and non-negative derivative. -/
theorem ftc_Ioi {f f' : ℝ → ℝ} {m0 m : ℝ} (hd : ∀ u, 0 < u → HasDerivAt f (f' u) u) (hpos : ∀ u, 0 < u → 0 ≤ f' u)
    (h0 : Tendsto f (𝓝[>] 0) (𝓝 m0)) (hinf : Tendsto f atTop (𝓝 m)) :
    IntegrableOn f' (Ioi 0) ∧ ∫ u in Ioi (0 : ℝ), f' u = m - m0 := by
  set g := Function.update f 0 m0 with hg
  have hgd : ∀ u ∈ Ioi (0 : ℝ), HasDerivAt g (f' u) u := by
    intro u hu
    refine (hd u hu).congr_of_eventuallyEq ?_
    filter_upwards [isOpen_Ioi.mem_nhds hu] with v hv
    rw [hg, Function.update_of_ne (ne_of_gt hv)]
  have hc : ContinuousWithinAt g (Ici 0) 0 := by
    rw [← continuousWithinAt_Ioi_iff_Ici]
    unfold ContinuousWithinAt
    rw [hg, Function.update_self]
    refine h0.congr' ?_
    filter_upwards [self_mem_nhdsWithin] with v hv
    rw [Function.update_of_ne (ne_of_gt hv)]
  have hi : Tendsto g atTop (𝓝 m) := by
    refine hinf.congr' ?_
    filter_upwards [eventually_gt_atTop 0] with v hv
    rw [hg, Function.update_of_ne (ne_of_gt hv)]
  refine ⟨integrableOn_Ioi_deriv_of_nonneg hc hgd (fun x hx => hpos x hx) hi, ?_⟩
  rw [integral_Ioi_of_hasDerivAt_of_nonneg hc hgd (fun x hx => hpos x hx) hi, hg, Function.update_self]

/-- The integral of the Gaussian from 0. -/
noncomputable def erf0 (y : ℝ) : ℝ := ∫ t in (0 : ℝ)..y, exp (-t ^ 2)

theorem erf0_deriv (y : ℝ) : HasDerivAt erf0 (exp (-y ^ 2)) y := by
  have hc : Continuous fun t : ℝ => exp (-t ^ 2) := by fun_prop
  exact (hc.integral_hasStrictDerivAt 0 y).hasDerivAt

theorem erf0_top : Tendsto erf0 atTop (𝓝 (√π / 2)) := by
  have h := intervalIntegral_tendsto_integral_Ioi 0 (integrable_exp_neg_mul_sq one_pos).integrableOn tendsto_id
  have h2 := integral_gaussian_Ioi 1
  rw [h2, div_one] at h
  refine h.congr fun y => ?_
  simp [erf0]

theorem erf0_neg (y : ℝ) : erf0 (-y) = -erf0 y := by
  unfold erf0
  have h := intervalIntegral.integral_comp_neg (a := 0) (b := y) (fun t : ℝ => exp (-t ^ 2))
  simp only [neg_sq, neg_zero] at h
  rw [h, intervalIntegral.integral_symm]

theorem erf0_bot : Tendsto erf0 atBot (𝓝 (-(√π / 2))) := by
  have h := (erf0_top.comp tendsto_neg_atBot_atTop).neg
  refine h.congr fun y => ?_
  simp [Function.comp, erf0_neg]

/-- The weight of the mixture times the Gaussian kernel. -/
noncomputable def mixInt (ν a u : ℝ) : ℝ := u ^ (ν - 1) * exp (-u - a ^ 2 / u)

theorem sqrt_atTop : Tendsto (fun u : ℝ => √u) atTop atTop := tendsto_sqrt_atTop

theorem sqrt_zero' : Tendsto (fun u : ℝ => √u) (𝓝[>] 0) (𝓝[>] 0) := by
  refine tendsto_nhdsWithin_iff.mpr ⟨?_, ?_⟩
  · have := continuous_sqrt.tendsto (0 : ℝ)
    rw [sqrt_zero] at this
    exact this.mono_left nhdsWithin_le_nhds
  · filter_upwards [self_mem_nhdsWithin] with u hu
    exact sqrt_pos.mpr hu

theorem div_sqrt_zero {a : ℝ} (ha : 0 < a) : Tendsto (fun u : ℝ => a / √u) (𝓝[>] 0) atTop :=
  (tendsto_inv_nhdsGT_zero.comp sqrt_zero').const_mul_atTop ha |>.congr fun u => by simp [div_eq_mul_inv]

theorem div_sqrt_top (a : ℝ) : Tendsto (fun u : ℝ => a / √u) atTop (𝓝 0) :=
  tendsto_const_nhds.div_atTop sqrt_atTop

/-- The two antiderivatives. -/
theorem half_pair {a : ℝ} (ha : 0 < a) :
    (IntegrableOn (mixInt (1 / 2) a) (Ioi 0) ∧ ∫ u in Ioi (0 : ℝ), mixInt (1 / 2) a u = √π * exp (-(2 * a))) ∧
    IntegrableOn (mixInt (-1 / 2) a) (Ioi 0) ∧ ∫ u in Ioi (0 : ℝ), a * mixInt (-1 / 2) a u = √π * exp (-(2 * a)) := by
  have hs : ∀ u : ℝ, 0 < u → HasDerivAt (fun u : ℝ => √u) (1 / (2 * √u)) u := fun u hu => by
    simpa using (hasDerivAt_id u).sqrt hu.ne'
  have hinv : ∀ u : ℝ, 0 < u → HasDerivAt (fun u : ℝ => a / √u) (-(a / (2 * (u * √u)))) u := fun u hu => by
    have h := (hasDerivAt_const u a).div (hs u hu) (sqrt_pos.mpr hu).ne'
    refine h.congr_deriv ?_
    have h1 := sqrt_pos.mpr hu
    have h2 := sq_sqrt hu.le
    field_simp
    rw [h2]; ring
  have e1 : ∀ u : ℝ, 0 < u → u ^ ((1:ℝ) / 2 - 1) = 1 / √u := fun u hu => by
    rw [show (1:ℝ) / 2 - 1 = -(1 / 2) by norm_num, rpow_neg hu.le, ← sqrt_eq_rpow, one_div]
  have e2 : ∀ u : ℝ, 0 < u → u ^ ((-1:ℝ) / 2 - 1) = 1 / (u * √u) := fun u hu => by
    rw [show (-1:ℝ) / 2 - 1 = -(1 + 1 / 2) by norm_num, rpow_neg hu.le, rpow_add hu, rpow_one, ← sqrt_eq_rpow, one_div]
  have hm : ∀ u : ℝ, 0 < u → HasDerivAt (fun u => erf0 (√u - a / √u))
      (exp (2 * a) * exp (-u - a ^ 2 / u) * (1 / (2 * √u) + a / (2 * (u * √u)))) u := fun u hu => by
    have h := (erf0_deriv (√u - a / √u)).comp u ((hs u hu).sub (hinv u hu))
    refine h.congr_deriv ?_
    rw [sub_neg_eq_add, ← exp_add]
    congr 2
    have h1 := sqrt_pos.mpr hu
    have h2 := sq_sqrt hu.le
    field_simp
    rw [h2]; ring
  have hp : ∀ u : ℝ, 0 < u → HasDerivAt (fun u => erf0 (√u + a / √u))
      (exp (-(2 * a)) * exp (-u - a ^ 2 / u) * (1 / (2 * √u) - a / (2 * (u * √u)))) u := fun u hu => by
    have h := (erf0_deriv (√u + a / √u)).comp u ((hs u hu).add (hinv u hu))
    refine h.congr_deriv ?_
    rw [← sub_eq_add_neg, ← exp_add]
    congr 2
    have h1 := sqrt_pos.mpr hu
    have h2 := sq_sqrt hu.le
    field_simp
    rw [h2]; ring
  have hm_top : Tendsto (fun u => erf0 (√u - a / √u)) atTop (𝓝 (√π / 2)) := by
    refine erf0_top.comp ?_
    have := sqrt_atTop.atTop_add (div_sqrt_top a).neg
    exact this.congr fun u => by ring
  have hp_top : Tendsto (fun u => erf0 (√u + a / √u)) atTop (𝓝 (√π / 2)) :=
    erf0_top.comp (sqrt_atTop.atTop_add (div_sqrt_top a))
  have hs0 : Tendsto (fun u : ℝ => √u) (𝓝[>] 0) (𝓝 0) := sqrt_zero'.mono_right nhdsWithin_le_nhds
  have hp_zero : Tendsto (fun u => erf0 (√u + a / √u)) (𝓝[>] 0) (𝓝 (√π / 2)) :=
    erf0_top.comp (hs0.add_atTop (div_sqrt_zero ha))
  have hm_zero : Tendsto (fun u => erf0 (√u - a / √u)) (𝓝[>] 0) (𝓝 (-(√π / 2))) := by
    refine erf0_bot.comp ?_
    have := hs0.add_atBot (tendsto_neg_atTop_atBot.comp (div_sqrt_zero ha))
    exact this.congr fun u => by simp [sub_eq_add_neg]
  have hee : exp (-(2 * a)) * exp (2 * a) = 1 := by rw [← exp_add]; simp
  have h1 := ftc_Ioi (f := fun u => exp (-(2 * a)) * erf0 (√u - a / √u) + exp (2 * a) * erf0 (√u + a / √u))
    (f' := mixInt (1 / 2) a)
    (fun u hu => by
      have h := ((hm u hu).const_mul (exp (-(2 * a)))).add ((hp u hu).const_mul (exp (2 * a)))
      refine h.congr_deriv (Eq.symm ?_)
      unfold mixInt
      rw [e1 u hu]
      have h1 := sqrt_pos.mpr hu
      calc 1 / √u * exp (-u - a ^ 2 / u) = (exp (-(2 * a)) * exp (2 * a)) * (1 / √u * exp (-u - a ^ 2 / u)) := by rw [hee, one_mul]
        _ = _ := by field_simp; ring)
    (fun u hu => by unfold mixInt; positivity)
    ((hm_zero.const_mul _).add (hp_zero.const_mul _)) ((hm_top.const_mul _).add (hp_top.const_mul _))
  have h2 := ftc_Ioi (f := fun u => exp (-(2 * a)) * erf0 (√u - a / √u) - exp (2 * a) * erf0 (√u + a / √u))
    (f' := fun u => a * mixInt (-1 / 2) a u)
    (fun u hu => by
      have h := ((hm u hu).const_mul (exp (-(2 * a)))).sub ((hp u hu).const_mul (exp (2 * a)))
      refine h.congr_deriv (Eq.symm ?_)
      unfold mixInt
      rw [e2 u hu]
      have h1 := sqrt_pos.mpr hu
      calc a * (1 / (u * √u) * exp (-u - a ^ 2 / u)) =
          (exp (-(2 * a)) * exp (2 * a)) * (a * (1 / (u * √u) * exp (-u - a ^ 2 / u))) := by rw [hee, one_mul]
        _ = _ := by field_simp; ring)
    (fun u hu => by unfold mixInt; positivity)
    ((hm_zero.const_mul _).sub (hp_zero.const_mul _)) ((hm_top.const_mul _).sub (hp_top.const_mul _))
  refine ⟨⟨h1.1, h1.2.trans (by ring)⟩, ?_, h2.2.trans (by ring)⟩
  have := h2.1.const_mul a⁻¹
  refine this.congr ?_
  refine Eventually.of_forall fun u => ?_
  show a⁻¹ * (a * mixInt (-1 / 2) a u) = _
  field_simp

theorem mixInt_pos (ν a : ℝ) {u : ℝ} (hu : 0 < u) : 0 < mixInt ν a u := by
  unfold mixInt
  have := rpow_pos_of_pos hu (ν - 1)
  positivity

theorem mixInt_cont (ν a : ℝ) : ContinuousOn (mixInt ν a) (Ioi 0) := by
  unfold mixInt
  refine ContinuousOn.mul (fun u hu => ?_) ?_
  · exact (continuousAt_rpow_const u _ (.inl (ne_of_gt hu))).continuousWithinAt
  · refine continuous_exp.comp_continuousOn (ContinuousOn.sub continuousOn_neg ?_)
    exact continuousOn_const.div continuousOn_id fun u hu => ne_of_gt hu

theorem mixInt_le (ν a : ℝ) {u : ℝ} (hu : 0 < u) : mixInt ν a u ≤ exp (-u) * u ^ (ν - 1) := by
  unfold mixInt
  rw [mul_comm]
  have : exp (-u - a ^ 2 / u) ≤ exp (-u) := exp_le_exp.mpr (by have : 0 ≤ a ^ 2 / u := by positivity
                                                               linarith)
  have h2 := rpow_pos_of_pos hu (ν - 1)
  exact mul_le_mul_of_nonneg_right this h2.le

theorem mixInt_integrable {ν : ℝ} (hν : 0 < ν) (a : ℝ) : IntegrableOn (mixInt ν a) (Ioi 0) := by
  refine (GammaIntegral_convergent hν).mono' ((mixInt_cont ν a).aestronglyMeasurable measurableSet_Ioi) ?_
  filter_upwards [ae_restrict_mem measurableSet_Ioi] with u hu
  rw [norm_of_nonneg (mixInt_pos ν a hu).le]
  exact mixInt_le ν a hu

/-- Integration by parts. -/
theorem mixInt_succ {ν : ℝ} (hν : 0 < ν) (a : ℝ) (hi : IntegrableOn (mixInt (ν - 1) a) (Ioi 0)) :
    ∫ u in Ioi (0 : ℝ), mixInt (ν + 1) a u =
      ν * (∫ u in Ioi (0 : ℝ), mixInt ν a u) + a ^ 2 * ∫ u in Ioi (0 : ℝ), mixInt (ν - 1) a u := by
  have i1 := mixInt_integrable hν a
  have i2 := mixInt_integrable (show 0 < ν + 1 by linarith) a
  have hint : IntegrableOn (fun u => ν * mixInt ν a u + a ^ 2 * mixInt (ν - 1) a u - mixInt (ν + 1) a u) (Ioi 0) :=
    ((i1.const_mul ν).add (hi.const_mul (a ^ 2))).sub i2
  have hd : ∀ u ∈ Ioi (0 : ℝ), HasDerivAt (fun u : ℝ => u ^ ν * exp (-u - a ^ 2 / u))
      (ν * mixInt ν a u + a ^ 2 * mixInt (ν - 1) a u - mixInt (ν + 1) a u) u := by
    intro u hu
    have hu' : (0:ℝ) < u := hu
    have h1 := hasDerivAt_rpow_const (p := ν) (x := u) (.inl hu'.ne')
    have h2 := ((hasDerivAt_neg u).sub ((hasDerivAt_const u (a ^ 2)).div (hasDerivAt_id u) hu'.ne')).exp
    refine (h1.mul h2).congr_deriv ?_
    unfold mixInt
    have e1 : u ^ (ν + 1 - 1) = u ^ (ν - 1) * u := by
      rw [← rpow_add_one hu'.ne']; congr 1; ring
    have e2 : u ^ ν = u ^ (ν - 1) * u := by
      rw [← rpow_add_one hu'.ne']; congr 1; ring
    have e3 : u ^ (ν - 1 - 1) = u ^ (ν - 1) / u := by
      rw [rpow_sub_one hu'.ne']
    simp only [id, Pi.div_apply, Pi.sub_apply]
    rw [e1, e2, e3]
    field_simp
    ring
  have hle : ∀ u : ℝ, 0 < u → ‖u ^ ν * exp (-u - a ^ 2 / u)‖ ≤ u ^ ν * exp (-u) := by
    intro u hu
    have h := rpow_pos_of_pos hu ν
    rw [norm_of_nonneg (by positivity)]
    have : 0 ≤ a ^ 2 / u := by positivity
    exact mul_le_mul_of_nonneg_left (exp_le_exp.mpr (by linarith)) h.le
  have htop : Tendsto (fun u : ℝ => u ^ ν * exp (-u - a ^ 2 / u)) atTop (𝓝 0) := by
    refine squeeze_zero_norm' ?_ (tendsto_rpow_mul_exp_neg_mul_atTop_nhds_zero ν 1 one_pos)
    filter_upwards [eventually_gt_atTop 0] with u hu
    simpa using hle u hu
  have hc : ContinuousWithinAt (fun u : ℝ => u ^ ν * exp (-u - a ^ 2 / u)) (Ici 0) 0 := by
    rw [← continuousWithinAt_Ioi_iff_Ici]
    unfold ContinuousWithinAt
    simp only [zero_rpow hν.ne', zero_mul]
    refine squeeze_zero_norm' (a := fun u : ℝ => u ^ ν * exp (-u)) ?_ ?_
    · filter_upwards [self_mem_nhdsWithin] with u hu
      exact hle u hu
    · have : ContinuousAt (fun u : ℝ => u ^ ν * exp (-u)) 0 :=
        (continuousAt_rpow_const 0 ν (.inr hν.le)).mul (by fun_prop)
      have h := this.tendsto
      simp only [zero_rpow hν.ne', zero_mul] at h
      exact h.mono_left nhdsWithin_le_nhds
  have h := integral_Ioi_of_hasDerivAt_of_tendsto hc hd hint htop
  simp only [zero_rpow hν.ne', zero_mul, sub_zero] at h
  have hsplit : ∫ u in Ioi (0 : ℝ), (ν * mixInt ν a u + a ^ 2 * mixInt (ν - 1) a u - mixInt (ν + 1) a u) =
      ((∫ u in Ioi (0 : ℝ), ν * mixInt ν a u) + ∫ u in Ioi (0 : ℝ), a ^ 2 * mixInt (ν - 1) a u) -
        ∫ u in Ioi (0 : ℝ), mixInt (ν + 1) a u := by
    rw [← integral_add (i1.const_mul ν) (hi.const_mul (a ^ 2))]
    exact integral_sub ((i1.const_mul ν).add (hi.const_mul (a ^ 2))) i2
  rw [hsplit, integral_const_mul, integral_const_mul] at h
  linarith

/-- The normalised mixture: the Matérn correlation of smoothness `ν` at scaled distance `2 a`. -/
noncomputable def mix (ν a : ℝ) : ℝ := (∫ u in Ioi (0 : ℝ), mixInt ν a u) / Gamma ν

theorem mix_zero {ν : ℝ} (hν : 0 < ν) : mix ν 0 = 1 := by
  unfold mix
  rw [Gamma_eq_integral hν]
  have : ∀ u, mixInt ν 0 u = exp (-u) * u ^ (ν - 1) := fun u => by unfold mixInt; simp [mul_comm]
  simp only [this]
  rw [← Gamma_eq_integral hν, div_self (Gamma_pos_of_pos hν).ne']

theorem gamma_three_half : Gamma (3 / 2) = √π / 2 := by
  have := Gamma_add_one (s := 1 / 2) (by norm_num)
  rw [Gamma_one_half_eq] at this
  rw [show (3:ℝ) / 2 = 1 / 2 + 1 by norm_num, this]; ring

theorem gamma_five_half : Gamma (5 / 2) = 3 * √π / 4 := by
  have := Gamma_add_one (s := 3 / 2) (by norm_num)
  rw [gamma_three_half] at this
  rw [show (5:ℝ) / 2 = 3 / 2 + 1 by norm_num, this]; ring

theorem mix_half {a : ℝ} (ha : 0 ≤ a) : mix (1 / 2) a = exp (-(2 * a)) := by
  rcases ha.eq_or_lt with rfl | ha
  · rw [mix_zero (by norm_num)]; simp
  · unfold mix
    rw [(half_pair ha).1.2, Gamma_one_half_eq]
    have := sqrt_pos.mpr pi_pos
    field_simp

theorem int_three_half {a : ℝ} (ha : 0 < a) :
    ∫ u in Ioi (0 : ℝ), mixInt (3 / 2) a u = √π * exp (-(2 * a)) * (1 / 2 + a) := by
  obtain ⟨⟨h1, h2⟩, h3, h4⟩ := half_pair ha
  have e : (-1:ℝ) / 2 = 1 / 2 - 1 := by norm_num
  rw [e] at h3 h4
  have h := mixInt_succ (ν := 1 / 2) (by norm_num) a h3
  rw [integral_const_mul] at h4
  rw [show (3:ℝ) / 2 = 1 / 2 + 1 by norm_num, h, h2, show a ^ 2 = a * a by ring, mul_assoc a a, h4]
  ring

theorem mix_three_half {a : ℝ} (ha : 0 ≤ a) : mix (3 / 2) a = (1 + 2 * a) * exp (-(2 * a)) := by
  rcases ha.eq_or_lt with rfl | ha
  · rw [mix_zero (by norm_num)]; simp
  · unfold mix
    rw [int_three_half ha, gamma_three_half]
    have := sqrt_pos.mpr pi_pos
    field_simp

theorem mix_five_half {a : ℝ} (ha : 0 ≤ a) : mix (5 / 2) a = (1 + 2 * a + (2 * a) ^ 2 / 3) * exp (-(2 * a)) := by
  rcases ha.eq_or_lt with rfl | ha
  · rw [mix_zero (by norm_num)]; simp
  · unfold mix
    have h := mixInt_succ (ν := 3 / 2) (by norm_num) a (by
      rw [show (3:ℝ) / 2 - 1 = 1 / 2 by norm_num]; exact (half_pair ha).1.1)
    rw [show (3:ℝ) / 2 - 1 = 1 / 2 by norm_num, (half_pair ha).1.2, int_three_half ha] at h
    rw [show (5:ℝ) / 2 = 3 / 2 + 1 by norm_num, h, show (3:ℝ) / 2 + 1 = 5 / 2 by norm_num, gamma_five_half]
    have := sqrt_pos.mpr pi_pos
    field_simp
    ring

/-- The mixture is strictly decreasing. -/
theorem mix_strictAnti {ν : ℝ} (hν : 0 < ν) {a b : ℝ} (ha : 0 ≤ a) (hab : a < b) : mix ν b < mix ν a := by
  unfold mix
  refine div_lt_div_of_pos_right ?_ (Gamma_pos_of_pos hν)
  have hlt : ∀ u ∈ Ioi (0 : ℝ), mixInt ν b u < mixInt ν a u := by
    intro u hu
    have hu' : (0:ℝ) < u := hu
    unfold mixInt
    refine mul_lt_mul_of_pos_left (exp_lt_exp.mpr ?_) (rpow_pos_of_pos hu' _)
    have : a ^ 2 / u < b ^ 2 / u := by
      refine div_lt_div_of_pos_right ?_ hu'
      nlinarith
    linarith
  have ia := mixInt_integrable hν a
  have ib := mixInt_integrable hν b
  rw [← sub_pos, ← integral_sub ia ib]
  rw [setIntegral_pos_iff_support_of_nonneg_ae]
  · have hsub : Ioi (0:ℝ) ⊆ (Function.support fun u => mixInt ν a u - mixInt ν b u) ∩ Ioi 0 := by
      intro u hu
      exact ⟨(sub_pos.mpr (hlt u hu)).ne', hu⟩
    refine lt_of_lt_of_le ?_ (measure_mono hsub)
    simp
  · filter_upwards [ae_restrict_mem measurableSet_Ioi] with u hu
    exact (sub_pos.mpr (hlt u hu)).le
  · exact ia.sub ib

theorem mix_pos {ν : ℝ} (hν : 0 < ν) (a : ℝ) : 0 < mix ν a := by
  unfold mix
  refine div_pos ?_ (Gamma_pos_of_pos hν)
  rw [setIntegral_pos_iff_support_of_nonneg_ae]
  · have hsub : Ioi (0:ℝ) ⊆ (Function.support (mixInt ν a)) ∩ Ioi 0 := by
      intro u hu
      exact ⟨(mixInt_pos ν a hu).ne', hu⟩
    refine lt_of_lt_of_le ?_ (measure_mono hsub)
    simp
  · filter_upwards [ae_restrict_mem measurableSet_Ioi] with u hu
    exact (mixInt_pos ν a hu).le
  · exact mixInt_integrable hν a

theorem mix_even (ν a : ℝ) : mix ν (-a) = mix ν a := by
  unfold mix mixInt; simp

theorem mix_le_one {ν : ℝ} (hν : 0 < ν) (a : ℝ) : mix ν a ≤ 1 := by
  wlog ha : 0 ≤ a generalizing a
  · rw [← mix_even]; exact this (-a) (by linarith)
  rcases ha.eq_or_lt with rfl | ha
  · rw [mix_zero hν]
  · have := mix_strictAnti hν le_rfl ha
    rw [mix_zero hν] at this
    exact this.le

/-- Continuity at every point. -/
theorem mix_continuous {ν : ℝ} (hν : 0 < ν) : Continuous (mix ν) := by
  unfold mix
  refine Continuous.div_const ?_ _
  refine continuous_of_dominated (bound := fun u => exp (-u) * u ^ (ν - 1)) (fun a => ?_) (fun a => ?_)
    (GammaIntegral_convergent hν) ?_
  · exact (mixInt_cont ν a).aestronglyMeasurable measurableSet_Ioi
  · filter_upwards [ae_restrict_mem measurableSet_Ioi] with u hu
    rw [norm_of_nonneg (mixInt_pos ν a hu).le]
    exact mixInt_le ν a hu
  · filter_upwards with u
    unfold mixInt
    fun_prop

variable {ι κ : Type*} [Fintype ι] [Fintype κ]

/-- Matérn kernel matrices of any smoothness and any points are positive semidefinite. -/
theorem mix_psd {ν : ℝ} (hν : 0 < ν) (y : ι → κ → ℝ) :
    (Matrix.of fun i j => mix ν (√(∑ c, (y i c - y j c) ^ 2) / 2)).PosSemidef := by
  rw [psd_iff]
  have hsym : ∀ i j, ∑ c, (y i c - y j c) ^ 2 = ∑ c, (y j c - y i c) ^ 2 := fun i j =>
    Finset.sum_congr rfl fun c _ => by ring
  refine ⟨fun i j => by simp only [Matrix.of_apply]; rw [hsym], fun v => ?_⟩
  have hrw : ∑ i, ∑ j, v i * (Matrix.of fun i j => mix ν (√(∑ c, (y i c - y j c) ^ 2) / 2)) i j * v j =
      (∫ u in Ioi (0 : ℝ), ∑ i, ∑ j, v i * mixInt ν (√(∑ c, (y i c - y j c) ^ 2) / 2) u * v j) / Gamma ν := by
    rw [integral_finsetSum _ fun i _ => integrable_finsetSum _ fun j _ =>
      ((mixInt_integrable hν _).const_mul _).mul_const _, Finset.sum_div]
    refine Finset.sum_congr rfl fun i _ => ?_
    rw [integral_finsetSum _ fun j _ => ((mixInt_integrable hν _).const_mul _).mul_const _, Finset.sum_div]
    refine Finset.sum_congr rfl fun j _ => ?_
    rw [integral_mul_const, integral_const_mul]
    simp only [Matrix.of_apply, mix]
    ring
  rw [hrw]
  refine div_nonneg (setIntegral_nonneg measurableSet_Ioi fun u hu => ?_) (Gamma_pos_of_pos hν).le
  have hu' : (0:ℝ) < u := hu
  have hg := ((psd_iff _).mp (gaussian_psd y (1 / (4 * u)) (by positivity))).2 v
  have hw := rpow_pos_of_pos hu' (ν - 1)
  have : ∑ i, ∑ j, v i * mixInt ν (√(∑ c, (y i c - y j c) ^ 2) / 2) u * v j =
      (u ^ (ν - 1) * exp (-u)) * ∑ i, ∑ j, v i * (Matrix.of fun i j => exp (-(1 / (4 * u) * ∑ c, (y i c - y j c) ^ 2))) i j * v j := by
    rw [Finset.mul_sum]
    refine Finset.sum_congr rfl fun i _ => ?_
    rw [Finset.mul_sum]
    refine Finset.sum_congr rfl fun j _ => ?_
    simp only [Matrix.of_apply, mixInt]
    rw [sub_eq_add_neg (-u), exp_add, div_pow, sq_sqrt (Finset.sum_nonneg fun c _ => sq_nonneg _)]
    have : -((∑ c, (y i c - y j c) ^ 2) / 2 ^ 2 / u) = -(1 / (4 * u) * ∑ c, (y i c - y j c) ^ 2) := by
      field_simp; norm_num
    rw [this]; ring
  rw [this]
  positivity

end MuyGPyS.Matern
