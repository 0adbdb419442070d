import Verif.Spec.Bessel
import Verif.Lemmas.Matern

/-! # The Matérn correlation is a mixture of Gaussians -/

namespace MuyGPyS.Matern
open MeasureTheory Set Filter Topology Real

/-- The substitution `u = x²/(4t)`. -/
theorem bessel_subst (ν : ℝ) {x : ℝ} (hx : 0 < x) :
    ∫ t in Ioi (0 : ℝ), t ^ (-ν - 1) * exp (-t - x ^ 2 / (4 * t)) = ((x / 2) ^ (2 * ν))⁻¹ * ∫ u in Ioi (0 : ℝ), mixInt ν (x / 2) u := by
  set c := (x / 2) ^ 2 with hc
  have hc0 : 0 < c := by positivity
  have hcx : x ^ 2 = 4 * c := by rw [hc]; ring
  set F : ℝ → ℝ := fun t => t ^ (-ν - 1) * exp (-t - x ^ 2 / (4 * t)) with hF
  have h1 := integral_comp_rpow_Ioi F (p := -1) (by norm_num)
  have h2 := integral_comp_mul_left_Ioi (fun y => (|(-1:ℝ)| * y ^ ((-1:ℝ) - 1)) • F (y ^ (-1:ℝ))) 0 (b := c⁻¹) (by positivity)
  rw [mul_zero, h1] at h2
  have h3 : (∫ u in Ioi (0 : ℝ), (|(-1:ℝ)| * (c⁻¹ * u) ^ ((-1:ℝ) - 1)) • F ((c⁻¹ * u) ^ (-1:ℝ))) =
      ∫ u in Ioi (0 : ℝ), (c ^ ν)⁻¹ * c * mixInt ν (x / 2) u := by
    refine setIntegral_congr_fun measurableSet_Ioi fun u hu => ?_
    have hu' : (0:ℝ) < u := hu
    have e1 : (c⁻¹ * u) ^ (-1:ℝ) = c / u := by
      rw [rpow_neg_one]; field_simp
    have e2 : (c⁻¹ * u) ^ ((-1:ℝ) - 1) = (c / u) ^ 2 := by
      rw [show (-1:ℝ) - 1 = (-1) * 2 by norm_num, rpow_mul (by positivity), e1, rpow_two]
    have e3 : (c / u) ^ (-ν - 1) = (c ^ ν)⁻¹ * c⁻¹ * (u ^ (ν - 1) * u ^ 2) := by
      rw [div_rpow hc0.le hu'.le, rpow_sub hc0, rpow_neg hc0.le, rpow_one, rpow_sub hu', rpow_neg hu'.le, rpow_one,
        rpow_sub hu', rpow_one]
      have := rpow_pos_of_pos hu' ν
      have := rpow_pos_of_pos hc0 ν
      field_simp
    simp only [hF, smul_eq_mul, mixInt]
    rw [e1, e2, e3, hcx, ← hc]
    have e4 : -(c / u) - 4 * c / (4 * (c / u)) = -u - c / u := by field_simp; ring
    rw [e4]
    have := rpow_pos_of_pos hc0 ν
    simp only [abs_neg, abs_one]
    field_simp
  rw [h3, integral_const_mul] at h2
  have e5 : (x / 2) ^ (2 * ν) = c ^ ν := by rw [hc, rpow_mul (by positivity), rpow_two]
  rw [e5]
  rw [smul_eq_mul, inv_inv] at h2
  have h4 : ∫ t in Ioi (0:ℝ), F t = c⁻¹ * ((c ^ ν)⁻¹ * c * ∫ u in Ioi (0 : ℝ), mixInt ν (x / 2) u) := by
    rw [h2]; field_simp
  rw [h4]; field_simp

/-- The Matérn correlation at scaled distance `x > 0`. -/
theorem bessel_mix (ν : ℝ) {x : ℝ} (hx : 0 < x) : 2 ^ (1 - ν) / Gamma ν * x ^ ν * besselK ν x = mix ν (x / 2) := by
  unfold besselK mix
  rw [bessel_subst ν hx]
  have hx2 : 0 < x / 2 := by positivity
  have e1 : (x / 2) ^ (2 * ν) = (x / 2) ^ ν * (x / 2) ^ ν := by rw [two_mul, rpow_add hx2]
  have e2 : (2:ℝ) ^ (1 - ν) = 2 / 2 ^ ν := by rw [rpow_sub (by norm_num), rpow_one]
  have e3 : x ^ ν = (x / 2) ^ ν * 2 ^ ν := by
    rw [div_rpow hx.le (by norm_num)]
    have := rpow_pos_of_pos (show (0:ℝ) < 2 by norm_num) ν
    field_simp
  rw [e1, e2, e3]
  have h1 := rpow_pos_of_pos (show (0:ℝ) < 2 by norm_num) ν
  have h2 := rpow_pos_of_pos hx2 ν
  field_simp

theorem maternCorrelation_mix {ν d : ℝ} (hν : 0 < ν) (hd : 0 < d) : maternCorrelation ν d = mix ν (√(2 * ν) * d / 2) :=
  bessel_mix ν (by positivity)

/-- The Bessel function of order one half, as a check of the definition. -/
theorem besselK_half {x : ℝ} (hx : 0 < x) : besselK (1 / 2) x = √(π / (2 * x)) * exp (-x) := by
  have h := bessel_mix (1 / 2) hx
  rw [mix_half (by positivity), Gamma_one_half_eq, show (1:ℝ) - 1 / 2 = 1 / 2 by norm_num, ← sqrt_eq_rpow, ← sqrt_eq_rpow] at h
  have e : 2 * (x / 2) = x := by ring
  rw [e] at h
  have h2 : 0 < √2 := by positivity
  have hpi := sqrt_pos.mpr pi_pos
  have hxs := sqrt_pos.mpr hx
  rw [sqrt_div pi_pos.le, sqrt_mul (by norm_num)]
  field_simp at h ⊢
  linarith

end MuyGPyS.Matern
