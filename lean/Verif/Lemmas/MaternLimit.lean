import Verif.Lemmas.Bessel
import Mathlib.Analysis.Calculus.MeanValue
import Mathlib.Analysis.Complex.ExponentialBounds

/-! # The Matérn correlation tends to the Gaussian one, with a rate -/

namespace MuyGPyS.Matern
open MeasureTheory Set Filter Topology Real

theorem sq_le_exp {t : ℝ} (ht : 0 ≤ t) : t ^ 2 ≤ exp t := by
  have h1 : t / 2 ≤ exp (t / 2 - 1) := by have := add_one_le_exp (t / 2 - 1); linarith
  have h2 : (2:ℝ) ≤ exp 1 := by have := add_one_le_exp (1:ℝ); linarith
  have h3 : t ≤ exp (t / 2) := by
    calc t = 2 * (t / 2) := by ring
      _ ≤ exp 1 * exp (t / 2 - 1) := mul_le_mul h2 h1 (by positivity) (exp_pos _).le
      _ = exp (t / 2) := by rw [← exp_add]; congr 1; ring
  calc t ^ 2 ≤ exp (t / 2) ^ 2 := pow_le_pow_left₀ ht h3 2
    _ = exp t := by rw [← exp_nat_mul]; congr 1; push_cast; ring

/-- `w ↦ exp (-c/w)` is Lipschitz on the positive numbers. -/
theorem exp_neg_div_lipschitz {c : ℝ} (hc : 0 < c) {w : ℝ} (hw : 0 < w) : |exp (-(c / w)) - exp (-c)| ≤ 1 / c * |w - 1| := by
  have hd : ∀ v ∈ Ioi (0:ℝ), HasDerivWithinAt (fun v : ℝ => exp (-(c / v))) (exp (-(c / v)) * (c / v ^ 2)) (Ioi 0) v := by
    intro v hv
    have hv' : (0:ℝ) < v := hv
    have h := (((hasDerivAt_const v c).div (hasDerivAt_id v) hv'.ne').neg).exp
    refine (h.congr_deriv ?_).hasDerivWithinAt
    simp only [id, Pi.div_apply, Pi.neg_apply]
    ring
  have hb : ∀ v ∈ Ioi (0:ℝ), ‖exp (-(c / v)) * (c / v ^ 2)‖ ≤ 1 / c := by
    intro v hv
    have hv' : (0:ℝ) < v := hv
    rw [norm_of_nonneg (by positivity)]
    have h := sq_le_exp (t := c / v) (by positivity)
    have h2 : exp (-(c / v)) * (c / v) ^ 2 ≤ 1 := by
      calc exp (-(c / v)) * (c / v) ^ 2 ≤ exp (-(c / v)) * exp (c / v) := mul_le_mul_of_nonneg_left h (exp_pos _).le
        _ = 1 := by rw [← exp_add]; simp
    rw [le_div_iff₀ hc]
    calc exp (-(c / v)) * (c / v ^ 2) * c = exp (-(c / v)) * (c / v) ^ 2 := by field_simp
      _ ≤ 1 := h2
  have := (convex_Ioi (0:ℝ)).norm_image_sub_le_of_norm_hasDerivWithin_le hd hb (show (1:ℝ) ∈ Ioi 0 from mem_Ioi.mpr one_pos) (mem_Ioi.mpr hw)
  simpa [div_one] using this

/-- Matérn correlations of large smoothness are close to the Gaussian correlation. -/
theorem mix_near_gaussian {ν d : ℝ} (hν : 0 < ν) (hd : 0 < d) :
    |mix ν (√(2 * ν) * d / 2) - exp (-d ^ 2 / 2)| ≤ 2 / (d ^ 2 * √ν) := by
  set c := d ^ 2 / 2 with hc
  have hc0 : 0 < c := by positivity
  have hsν := sqrt_pos.mpr hν
  have hG := Gamma_pos_of_pos hν
  have ha : (√(2 * ν) * d / 2) ^ 2 = ν * c := by
    rw [div_pow, mul_pow, sq_sqrt (by positivity), hc]; ring
  -- the weight
  set ρ : ℝ → ℝ := fun u => exp (-u) * u ^ (ν - 1) with hρ
  have i0 : IntegrableOn ρ (Ioi 0) := GammaIntegral_convergent hν
  have hm1 : ∀ u ∈ Ioi (0:ℝ), exp (-u) * u ^ (ν + 1 - 1) = u * ρ u := by
    intro u hu
    have hu' : (0:ℝ) < u := hu
    simp only [hρ]
    rw [show ν + 1 - 1 = (ν - 1) + 1 by ring, rpow_add_one hu'.ne']; ring
  have hm2 : ∀ u ∈ Ioi (0:ℝ), exp (-u) * u ^ (ν + 2 - 1) = u ^ 2 * ρ u := by
    intro u hu
    have hu' : (0:ℝ) < u := hu
    simp only [hρ]
    rw [show ν + 2 - 1 = (ν - 1) + 1 + 1 by ring, rpow_add_one hu'.ne', rpow_add_one hu'.ne']; ring
  have i1 : IntegrableOn (fun u => u * ρ u) (Ioi 0) :=
    (GammaIntegral_convergent (show 0 < ν + 1 by linarith)).congr_fun hm1 measurableSet_Ioi
  have i2 : IntegrableOn (fun u => u ^ 2 * ρ u) (Ioi 0) :=
    (GammaIntegral_convergent (show 0 < ν + 2 by linarith)).congr_fun hm2 measurableSet_Ioi
  have v0 : ∫ u in Ioi (0:ℝ), ρ u = Gamma ν := (Gamma_eq_integral hν).symm
  have v1 : ∫ u in Ioi (0:ℝ), u * ρ u = ν * Gamma ν := by
    rw [← setIntegral_congr_fun measurableSet_Ioi hm1, ← Gamma_eq_integral (by linarith), Gamma_add_one hν.ne']
  have v2 : ∫ u in Ioi (0:ℝ), u ^ 2 * ρ u = (ν + 1) * (ν * Gamma ν) := by
    rw [← setIntegral_congr_fun measurableSet_Ioi hm2, ← Gamma_eq_integral (by linarith),
      show ν + 2 = ν + 1 + 1 by ring, Gamma_add_one (by linarith), Gamma_add_one hν.ne']
  have hmix : ∀ u ∈ Ioi (0:ℝ), mixInt ν (√(2 * ν) * d / 2) u = exp (-(c / (u / ν))) * ρ u := by
    intro u hu
    have hu' : (0:ℝ) < u := hu
    simp only [mixInt, hρ]
    rw [ha, sub_eq_add_neg (-u), exp_add, show ν * c / u = c / (u / ν) by field_simp]
    ring
  have im := mixInt_integrable hν (√(2 * ν) * d / 2)
  -- the difference as an integral
  have hdiff : mix ν (√(2 * ν) * d / 2) - exp (-d ^ 2 / 2) =
      (∫ u in Ioi (0:ℝ), (mixInt ν (√(2 * ν) * d / 2) u - exp (-c) * ρ u)) / Gamma ν := by
    rw [integral_sub im (i0.const_mul _), integral_const_mul, v0, mix, sub_div, mul_div_cancel_right₀ _ hG.ne',
      show -d ^ 2 / 2 = -c by rw [hc]; ring]
  -- pointwise bound
  set B : ℝ → ℝ := fun u => 1 / (2 * c) * (√ν * (u ^ 2 * ρ u / ν ^ 2 - 2 * (u * ρ u) / ν + ρ u) + ρ u / √ν) with hB
  have hbound : ∀ u ∈ Ioi (0:ℝ), ‖mixInt ν (√(2 * ν) * d / 2) u - exp (-c) * ρ u‖ ≤ B u := by
    intro u hu
    have hu' : (0:ℝ) < u := hu
    have hρ0 : 0 < ρ u := by
      have := rpow_pos_of_pos hu' (ν - 1)
      simp only [hρ]; positivity
    rw [hmix u hu, ← sub_mul, norm_mul, norm_of_nonneg hρ0.le, Real.norm_eq_abs]
    have h1 := exp_neg_div_lipschitz hc0 (w := u / ν) (by positivity)
    have h2 : |u / ν - 1| ≤ (√ν * (u / ν - 1) ^ 2 + 1 / √ν) / 2 := by
      have hs2 := sq_sqrt hν.le
      have h := sq_nonneg (√ν * |u / ν - 1| - 1)
      have e : (√ν * |u / ν - 1| - 1) ^ 2 = √ν * (√ν * (u / ν - 1) ^ 2 + 1 / √ν - 2 * |u / ν - 1|) := by
        rw [sub_sq, mul_pow, sq_abs, hs2]
        rw [mul_sub, mul_add, ← mul_assoc √ν √ν, ← sq √ν, hs2, mul_one_div_cancel hsν.ne']
        ring
      rw [e] at h
      have := nonneg_of_mul_nonneg_right h hsν
      linarith
    calc |exp (-(c / (u / ν))) - exp (-c)| * ρ u ≤ (1 / c * ((√ν * (u / ν - 1) ^ 2 + 1 / √ν) / 2)) * ρ u :=
          mul_le_mul_of_nonneg_right (h1.trans (mul_le_mul_of_nonneg_left h2 (by positivity))) hρ0.le
      _ = B u := by simp only [hB]; field_simp; ring
  have iB : IntegrableOn B (Ioi 0) := by
    have := (((((i2.div_const (ν ^ 2)).sub ((i1.const_mul 2).div_const ν)).add i0).const_mul √ν).add (i0.div_const √ν)).const_mul
      (1 / (2 * c))
    exact this
  have vB : ∫ u in Ioi (0:ℝ), B u = 1 / c * (Gamma ν / √ν) := by
    have j2 := i2.div_const (ν ^ 2)
    have j1 := (i1.const_mul 2).div_const ν
    have e1 : ∫ u in Ioi (0:ℝ), (u ^ 2 * ρ u / ν ^ 2 - 2 * (u * ρ u) / ν) = (ν + 1) * (ν * Gamma ν) / ν ^ 2 - 2 * (ν * Gamma ν) / ν := by
      rw [← v2, ← v1, ← integral_const_mul, ← integral_div, ← integral_div]
      exact integral_sub j2 j1
    have e2 : ∫ u in Ioi (0:ℝ), (u ^ 2 * ρ u / ν ^ 2 - 2 * (u * ρ u) / ν + ρ u) =
        (ν + 1) * (ν * Gamma ν) / ν ^ 2 - 2 * (ν * Gamma ν) / ν + Gamma ν := by
      rw [← e1, ← v0]
      exact integral_add (j2.sub j1) i0
    have e3 : ∫ u in Ioi (0:ℝ), (√ν * (u ^ 2 * ρ u / ν ^ 2 - 2 * (u * ρ u) / ν + ρ u) + ρ u / √ν) =
        √ν * ((ν + 1) * (ν * Gamma ν) / ν ^ 2 - 2 * (ν * Gamma ν) / ν + Gamma ν) + Gamma ν / √ν := by
      rw [← e2, ← v0, ← integral_const_mul, ← integral_div]
      exact integral_add (((j2.sub j1).add i0).const_mul _) (i0.div_const _)
    simp only [hB]
    rw [integral_const_mul, e3]
    have hs2 : √ν * √ν = ν := mul_self_sqrt hν.le
    have e4 : (ν + 1) * (ν * Gamma ν) / ν ^ 2 - 2 * (ν * Gamma ν) / ν + Gamma ν = Gamma ν / ν := by field_simp; ring
    have e5 : √ν * (Gamma ν / ν) = Gamma ν / √ν := by
      rw [eq_div_iff hsν.ne', mul_comm √ν, mul_assoc, hs2]; field_simp
    rw [e4, e5]
    field_simp
    ring
  rw [hdiff, abs_div, abs_of_pos hG, div_le_iff₀ hG]
  calc |∫ u in Ioi (0:ℝ), (mixInt ν (√(2 * ν) * d / 2) u - exp (-c) * ρ u)| ≤ ∫ u in Ioi (0:ℝ), B u := by
        rw [← Real.norm_eq_abs]
        refine norm_integral_le_of_norm_le iB ?_
        filter_upwards [ae_restrict_mem measurableSet_Ioi] with u hu
        exact hbound u hu
    _ = _ := by rw [vB, hc]; field_simp

end MuyGPyS.Matern
