import Verif.Lemmas.Matern
import Mathlib.Analysis.SpecialFunctions.Gamma.Deriv

/-! # The Matérn correlation at a fixed distance vanishes as the smoothness tends to zero -/

namespace MuyGPyS.Matern
open MeasureTheory Set Filter Topology Real

theorem mixInt_le_half (ν : ℝ) {a u : ℝ} (ha : 0 < a) (hu : 0 < u) :
    mixInt ν a u ≤ a⁻¹ * (exp (-u) * u ^ (ν + 1 / 2 - 1)) := by
  have h1 : exp (-(a ^ 2 / u)) ≤ √u / a := by
    have hx : 0 < a / √u := by positivity
    have h2 : (a / √u) ^ 2 = a ^ 2 / u := by rw [div_pow, sq_sqrt hu.le]
    have h3 : a / √u ≤ exp ((a / √u) ^ 2) := by
      have := add_one_le_exp ((a / √u) ^ 2)
      nlinarith [sq_nonneg (a / √u - 1 / 2)]
    rw [← h2, exp_neg]
    rw [show √u / a = (a / √u)⁻¹ by rw [inv_div]]
    exact inv_anti₀ hx h3
  have h4 : u ^ (ν + 1 / 2 - 1) = u ^ (ν - 1) * √u := by
    rw [sqrt_eq_rpow, ← rpow_add hu]; congr 1; ring
  unfold mixInt
  rw [h4, show -u - a ^ 2 / u = -u + -(a ^ 2 / u) by ring, exp_add]
  have hp := rpow_pos_of_pos hu (ν - 1)
  calc u ^ (ν - 1) * (exp (-u) * exp (-(a ^ 2 / u))) ≤ u ^ (ν - 1) * (exp (-u) * (√u / a)) := by gcongr
    _ = _ := by rw [div_eq_mul_inv]; ring

theorem mix_le_half {ν a : ℝ} (hν : 0 < ν) (ha : 0 < a) : mix ν a ≤ a⁻¹ * (Gamma (ν + 1 / 2) / Gamma ν) := by
  unfold mix
  rw [← mul_div_assoc]
  refine div_le_div_of_nonneg_right ?_ (Gamma_pos_of_pos hν).le
  have hν2 : 0 < ν + 1 / 2 := by linarith
  rw [Gamma_eq_integral hν2, ← integral_const_mul]
  refine setIntegral_mono_on (mixInt_integrable hν a) ((GammaIntegral_convergent hν2).const_mul _) measurableSet_Ioi ?_
  intro u hu
  exact mixInt_le_half ν ha hu

theorem mix_small {d : ℝ} (hd : 0 < d) : Tendsto (fun ν => mix ν (√(2 * ν) * d / 2)) (𝓝[>] 0) (𝓝 0) := by
  have hG : ∀ x : ℝ, 0 < x → ContinuousAt Gamma x := fun x hx =>
    (differentiableAt_Gamma fun m => by have : (0:ℝ) ≤ m := Nat.cast_nonneg m; linarith).continuousAt
  -- the bound `√(2ν) / d · Γ(ν + 1/2) / Γ(ν + 1)`
  have hb : Tendsto (fun ν : ℝ => √(2 * ν) / d * (Gamma (ν + 1 / 2) / Gamma (ν + 1))) (𝓝[>] 0) (𝓝 0) := by
    have h1 : ContinuousAt (fun ν : ℝ => √(2 * ν) / d * (Gamma (ν + 1 / 2) / Gamma (ν + 1))) 0 := by
      have c1 : ContinuousAt (fun ν : ℝ => Gamma (ν + 1 / 2)) 0 := by
        refine ContinuousAt.comp (g := Gamma) (hG _ (by norm_num)) (by fun_prop)
      have c2 : ContinuousAt (fun ν : ℝ => Gamma (ν + 1)) 0 := by
        refine ContinuousAt.comp (g := Gamma) (hG _ (by norm_num)) (by fun_prop)
      refine ContinuousAt.mul (by fun_prop) (c1.div c2 ?_)
      exact (Gamma_pos_of_pos (by norm_num)).ne'
    have h2 := h1.tendsto
    simp only [mul_zero, sqrt_zero, zero_div, zero_mul] at h2
    exact h2.mono_left nhdsWithin_le_nhds
  refine squeeze_zero' ?_ ?_ hb
  · filter_upwards [self_mem_nhdsWithin] with ν hν
    exact (mix_pos hν _).le
  · filter_upwards [self_mem_nhdsWithin] with ν hν
    have hν' : 0 < ν := hν
    have hs : 0 < √(2 * ν) := by positivity
    refine (mix_le_half hν' (by positivity)).trans (le_of_eq ?_)
    rw [Gamma_add_one hν'.ne']
    have hg := (Gamma_pos_of_pos hν').ne'
    have hsq : √(2 * ν) * √(2 * ν) = 2 * ν := mul_self_sqrt (by positivity)
    field_simp
    nlinarith [hsq]

end MuyGPyS.Matern
