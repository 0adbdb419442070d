import Verif.Props.BatchAverageWitness
import Verif.Props.ScaleAccuracy
import Verif.Props.BayesMore

/-! # C72, C111 with the general Matérn implementation: non-vacuity -/

namespace MuyGPyS
open Py Matrix MeasureTheory ProbabilityTheory

/-- Non-vacuity of `C111_matern_partial`, and so of `C72_matern_partial`: smoothness 5/2, noise variance 1, true scale 5. -/
example : ∃ (w : NNWrapper) (Ω : Type) (_ : MeasurableSpace Ω) (P : Measure Ω) (_ : IsProbabilityMeasure P)
    (Y : Ω → Tensor ℝ) (idx : List Nat) (nn : Tensor Int) (est : Ω → ℝ), w.train = lineTrain ∧ ∫ ω, est ω ∂P = 5 ∧ Var[est; P] ≤ 25 ∧
      ∀ᵐ ω ∂P, ∃ d, lineMaternScale.trainData (idx, nn) lineTrain (Y ω) = .ok d ∧
        lineMaternScale.optimizeScale maternGen [] d.pairwise d.nnTargets = .ok { lineMaternScale with scale := est ω, boundScale := est ω } := by
  obtain ⟨answer, hw⟩ := line_exact
  set w : NNWrapper := ⟨3, 1, lineTrain, 2, fun x y => |x 0 - y 0|, false, answer⟩ with hwd
  have hdef : deficit (5 / 2) < 1 := (deficit_two_up (by norm_num)).trans_lt (by norm_num)
  have hpos : ∀ _ : Fin w.f, (0 : ℝ) < 1 := fun _ => one_pos
  obtain ⟨Ω, i1, P, i2, G, Y, h⟩ := observedWith_exists w (maternProcess (5 / 2) fun _ => 1) 5 (by norm_num) (fun _ => 1 - deficit (5 / 2))
    (fun _ _ => by linarith) (fun p : Fin 2 => rowPt lineTest w.f p) (fun z => maternProcess_psd (by norm_num) _ hpos z)
  obtain ⟨idx, nn, h1, est, -, h2, h3, -, -, h4⟩ := C111_matern_partial lineMaternScale
    (by simp [Learner.Made, Learner.make, lineMaternScale, lineFreeMatern, setMaternFn]) rfl rfl rfl w hw (fun _ => 1) ⟨1, one_pos, rfl, fun _ => rfl⟩
    3 (by norm_num) [] (fun h => absurd h (lt_irrefl 3)) [] (by norm_num [hwd]) (by norm_num [hwd]) (by norm_num [hwd])
    _ (5 / 2) (by norm_num) rfl rfl line_distinct 1 rfl hdef 5 (by norm_num) P _ G Y h
  refine ⟨w, Ω, i1, P, i2, Y, idx, nn, est, rfl, h2, h3.trans ?_, h4.mono fun ω h => h.2⟩
  rw [show (w.nnCount : ℝ) = 2 by norm_num [hwd]]
  norm_num

/-- Non-vacuity of `C111_matern_iterations_fail`, and so of `C72_matern_iterations_fail`: true scale 9, two iterations. -/
example : ∃ (w : NNWrapper) (Ω : Type) (_ : MeasurableSpace Ω) (P : Measure Ω) (_ : IsProbabilityMeasure P)
    (est : Ω → ℝ), w.train = lineTrain ∧ 1 / 4 ≤ P.real {ω | est ω < 3 / 4 * 9} ∧
      ∀ᵐ ω ∂P, ∃ d : TrainData, ({ lineMaternScale with scaleKind := .analytic 2 } : Learner).optimizeScale maternGen [] d.pairwise d.nnTargets =
        .ok { lineMaternScale with scaleKind := .analytic 2, scale := est ω, boundScale := est ω } := by
  obtain ⟨answer, hw⟩ := line_exact
  set w : NNWrapper := ⟨3, 1, lineTrain, 2, fun x y => |x 0 - y 0|, false, answer⟩ with hwd
  have hdef : deficit (5 / 2) < 1 := (deficit_two_up (by norm_num)).trans_lt (by norm_num)
  have hpos : ∀ _ : Fin w.f, (0 : ℝ) < 1 := fun _ => one_pos
  obtain ⟨Ω, i1, P, i2, G, Y, h⟩ := observedWith_exists w (maternProcess (5 / 2) fun _ => 1) 9 (by norm_num) (fun _ => 1 - deficit (5 / 2))
    (fun _ _ => by linarith) (fun p : Fin 2 => rowPt lineTest w.f p) (fun z => maternProcess_psd (by norm_num) _ hpos z)
  obtain ⟨idx, nn, h1, est, h3, h4⟩ := C111_matern_iterations_fail { lineMaternScale with scaleKind := .analytic 2 }
    (by simp [Learner.Made, Learner.make, lineMaternScale, lineFreeMatern, setMaternFn]) 0 rfl rfl rfl w hw (fun _ => 1) ⟨1, one_pos, rfl, fun _ => rfl⟩
    3 (by norm_num) [] (fun h => absurd h (lt_irrefl 3)) [] (by norm_num [hwd]) (by norm_num [hwd]) (by norm_num [hwd])
    _ (5 / 2) (by norm_num) rfl rfl line_distinct 1 rfl hdef 9 le_rfl P _ G Y h
  exact ⟨w, Ω, i1, P, i2, est, rfl, h4, h3.mono fun ω ⟨d, _, b⟩ => ⟨d, b⟩⟩

end MuyGPyS
