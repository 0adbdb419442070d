import Verif.Props.FastPipeline
import Verif.Props.MultiPipelineWitness

/-! # C65: concrete models, training set and test points that meet the hypotheses -/

namespace MuyGPyS
open Py Matrix

theorem line_separated (answer : (Fin 1 → ℝ) → Nat → List Nat) :
    NNWrapper.Separated ⟨3, 1, lineTrain, 2, fun x y => |x 0 - y 0|, false, answer⟩ := by
  have hr0 : rowPt lineTrain 1 0 0 = 0 := by simp [rowPt, lineTrain, Tensor.get, Tensor.ravel]
  have hr1 : rowPt lineTrain 1 1 0 = 1 := by simp [rowPt, lineTrain, Tensor.get, Tensor.ravel]
  have hr2 : rowPt lineTrain 1 2 0 = 3 := by simp [rowPt, lineTrain, Tensor.get, Tensor.ravel]
  refine ⟨fun x => by simp, fun i hi j hj hji => ?_⟩
  show 0 < |rowPt lineTrain 1 i 0 - rowPt lineTrain 1 j 0|
  have hi' : i < 3 := hi
  have hj' : j < 3 := hj
  interval_cases i <;> interval_cases j <;> first | exact absurd rfl hji | (simp only [hr0, hr1, hr2]; norm_num)

/-- `lineFixed` without noise. -/
noncomputable def lineNoiseless : Learner :=
  ⟨⟨.scalar ⟨Flt.fin 1, Flt.fin 1, Flt.fin 3, true⟩, none⟩, .homoscedastic ⟨Flt.fin 0, Flt.fin 0, Flt.fin 0, true⟩, .F2, false, .rbf,
    .fixed, 2, 2⟩

theorem lineNoiseless_usable (w : NNWrapper) (hd : DistinctRows w.train w.N w.f) (b : Nat) : lineNoiseless.Usable w b := by
  have hN : lineNoiseless.trainee.R.gp.noise = .homoscedastic 0 := rfl
  refine ⟨rfl, rfl, ?_, ?_⟩
  · rw [hN]; trivial
  · rw [hN]; exact .inr ⟨le_refl 0, hd⟩

/-- Non-vacuity of `C65_actual`, `C65_right_iff` and `C65_interpolation_fails`: training points `0, 1, 3`, no noise, a test point at `0`. -/
example (bs : Flt → ℝ → ℝ) : ∃ w : NNWrapper, w.Exact ∧ w.N = 3 ∧ w.nnCount = 2 ∧ ∃ Y μ C : Tensor ℝ, Y.shape = [w.N] ∧
    fastAnyModel bs (.one lineNoiseless) w lineTest w.train Y = .ok (μ, C) ∧ μ.get [0] ≠ Y.get [0] := by
  obtain ⟨answer, hw⟩ := line_exact
  refine ⟨_, hw, rfl, rfl, ?_⟩
  exact (C65_interpolation_fails bs _ hw (le_refl 2) (le_refl 3) (line_separated answer) lineTest 2 rfl (le_refl 2) lineNoiseless
    (lineNoiseless_usable _ line_distinct _) (fun _ => 1) ⟨1, one_pos, rfl, fun _ => rfl⟩ 0 0 two_pos (by norm_num)
    (by show (0 : ℝ) • (1 : Matrix (Fin 2) (Fin 2) ℝ) = 0; simp) (by
      funext c
      show _ = rowPt lineTrain 1 0 c
      fin_cases c
      simp [rowPt, lineTrain, lineTest, Tensor.get, Tensor.ravel])).2

/-- Non-vacuity of `C65_do_fast` and `C65_model`: a fixed model, two test points, two responses. -/
example (bs : Flt → ℝ → ℝ) : ∃ w : NNWrapper, w.Exact ∧ w.N = 3 ∧ w.nnCount = 2 ∧ ∃ μ C : Tensor ℝ,
    doFastPosteriorMean bs lineOpt [] (fun _ => []) 3 w (.dict lineFixed) lineTest ⟨[3, 2], fun k => k⟩ = .ok (.one lineFixed, μ, C) ∧
    μ.shape = [2, 2] ∧ C.shape = [3, 2, 2] := by
  obtain ⟨answer, hw⟩ := line_exact
  refine ⟨_, hw, rfl, rfl, ?_⟩
  obtain ⟨U, cl, -, -, h⟩ := C65_do_fast bs lineOpt [] (fun _ => []) 3 _ hw (le_refl 2) (le_refl 3) (line_separated answer) lineTest 2 rfl
    (le_refl 2)
  obtain ⟨μ, C, h1, h2, h3, -⟩ := h lineFixed lineFixed (fun _ => 1) ⟨[3, 2], fun k => k⟩ 2
    (by
      unfold makeRegressor
      rw [fixed_of_params (by simp [lineFixed]) lineFixed_fixed]
      rfl)
    (lineUsable _ rfl rfl rfl rfl _ _) ⟨1, one_pos, rfl, fun _ => rfl⟩ two_pos (.inl rfl)
  exact ⟨μ, C, h1, h2, h3⟩

/-- Non-vacuity of `C65_linear`. -/
example (bs : Flt → ℝ → ℝ) : ∃ w : NNWrapper, w.Exact ∧ w.N = 3 ∧ w.nnCount = 2 ∧ ∃ μ₁ C₁ μ₂ C₂ : Tensor ℝ,
    fastAnyModel bs (.one lineFixed) w lineTest w.train lineTargets = .ok (μ₁, C₁) ∧
    fastAnyModel bs (.one lineFixed) w lineTest w.train ⟨[3], fun k => 5 * lineTargets.flat k⟩ = .ok (μ₂, C₂) ∧
    μ₂.flat 1 = 5 * μ₁.flat 1 := by
  obtain ⟨answer, hw⟩ := line_exact
  refine ⟨_, hw, rfl, rfl, ?_⟩
  obtain ⟨μ₁, C₁, μ₂, C₂, μ₃, C₃, a1, -, a3, -, -, a4, -⟩ := C65_linear bs _ hw (le_refl 2) (le_refl 3) (line_separated answer) lineTest 2 rfl
    (le_refl 2) lineFixed (fun _ => 1) (lineUsable _ rfl rfl rfl rfl _ _) ⟨1, one_pos, rfl, fun _ => rfl⟩ lineTargets lineTargets
    ⟨[3], fun k => 5 * lineTargets.flat k⟩ 1 one_pos (.inr ⟨rfl, rfl⟩) (.inr ⟨rfl, rfl⟩) (.inr ⟨rfl, rfl⟩) 5 0 (by
      intro i hi c hc
      obtain rfl : c = 0 := by omega
      simp [feature, lineTargets, Tensor.get, Tensor.ravel])
  refine ⟨μ₁, C₁, μ₃, C₃, a1, a3, ?_⟩
  rw [a4 1 (by norm_num)]; ring

/-- Non-vacuity of `C65_multi_zero` and `C65_multi_fails`: two noise-free models, responses 1 everywhere, a test point on a training
point. -/
example (bs : Flt → ℝ → ℝ) : ∃ w : NNWrapper, w.Exact ∧ w.N = 3 ∧ w.nnCount = 2 ∧ ∃ μ C : Tensor ℝ,
    fastAnyModel bs (.multi [lineNoiseless, lineNoiseless]) w lineTest w.train ⟨[3, 2], fun _ => 1⟩ = .ok (μ, C) ∧
    μ.get [0, 1] ≠ 1 := by
  obtain ⟨answer, hw⟩ := line_exact
  refine ⟨_, hw, rfl, rfl, ?_⟩
  have hall : ∀ L ∈ [lineNoiseless, lineNoiseless], L = lineNoiseless := by simp
  obtain ⟨U, μ, C, -, h1, h2, h3⟩ := C65_multi_fails bs _ hw (le_refl 2) (le_refl 3) (line_separated answer) lineTest 2 rfl two_pos
    [lineNoiseless, lineNoiseless] (by intro L hL L' hL'; rw [hall L hL, hall L' hL']; exact ⟨rfl, rfl⟩)
    (by intro L hL; rw [hall L hL]; exact lineNoiseless_usable _ line_distinct _) (fun _ _ => 1)
    (by intro L hL; rw [hall L hL]; exact ⟨1, one_pos, rfl, fun _ => rfl⟩) ⟨[3, 2], fun _ => 1⟩ rfl 0 0 1 lineNoiseless rfl
    (by norm_num) (by show (0 : ℝ) • (1 : Matrix (Fin 2) (Fin 2) ℝ) = 0; simp) (by
      funext c
      show _ = rowPt lineTrain 1 0 c
      fin_cases c
      simp [rowPt, lineTrain, lineTest, Tensor.get, Tensor.ravel])
    (by show (1 : ℝ) ≠ 0; exact one_ne_zero)
  refine ⟨μ, C, h1, fun h => h3 ?_⟩
  rw [h2]; exact h

end MuyGPyS
