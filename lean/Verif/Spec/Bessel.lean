import Mathlib.MeasureTheory.Integral.Bochner.Set
import Mathlib.MeasureTheory.Measure.Lebesgue.Basic
import Mathlib.Analysis.SpecialFunctions.Pow.Real
import Mathlib.Analysis.SpecialFunctions.Gamma.Basic

/-! # The modified Bessel function of the second kind and the Matérn correlation -/

namespace MuyGPyS
open MeasureTheory Set

/-- `K_ν(x) = ½ (x/2)^ν ∫₀^∞ t^(-ν-1) exp (-t - x²/(4t)) dt` for `x > 0` (DLMF 10.32.10). -/
noncomputable def besselK (ν x : ℝ) : ℝ :=
  1 / 2 * (x / 2) ^ ν * ∫ t in Ioi (0 : ℝ), t ^ (-ν - 1) * Real.exp (-t - x ^ 2 / (4 * t))

/-- The Matérn correlation of smoothness `ν` at distance `d > 0`:
`2^(1-ν)/Γ(ν) · (√(2ν) d)^ν · K_ν(√(2ν) d)`. -/
noncomputable def maternCorrelation (ν d : ℝ) : ℝ :=
  2 ^ (1 - ν) / Real.Gamma ν * (Real.sqrt (2 * ν) * d) ^ ν * besselK ν (Real.sqrt (2 * ν) * d)

end MuyGPyS
