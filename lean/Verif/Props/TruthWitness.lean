import Verif.Props.TruthLool
import Verif.Props.FastPipelineWitness

/-!
# C73: concrete cases
-/

namespace MuyGPyS
open Py MeasureTheory ProbabilityTheory

/-- `lineLearner` with length scale 2. -/
noncomputable def lineLearner2 : Learner :=
  { lineLearner with kernel := ⟨.scalar ⟨Flt.fin 2, Flt.fin 1, Flt.fin 3, false⟩, none⟩ }

/-- Non-vacuity of `C73_means_partial`: responses drawn with length scale 1 and noise 1; a model with length scale 2. -/
example (bs : Flt → ℝ → ℝ) : ∃ (w : NNWrapper) (Ω : Type) (_ : MeasurableSpace Ω) (P : Measure Ω) (_ : IsProbabilityMeasure P)
    (Y : Ω → Tensor ℝ) (idx : List Nat) (nn : Tensor Int) (S S' : Ω → ℝ), w.train = lineTrain ∧
      (∀ ω, ∃ d, lineLearner.trainData (idx, nn) w.train (Y ω) = .ok d ∧ lineLearner.score bs .mse [] d = .ok (some (S ω)) ∧
        lineLearner2.score bs .mse [] d = .ok (some (S' ω))) ∧ ∫ ω, S' ω ∂P ≤ ∫ ω, S ω ∂P := by
  obtain ⟨answer, hw⟩ := line_exact
  have hsep := line_separated answer
  set w : NNWrapper := ⟨3, 1, lineTrain, 2, fun x y => |x 0 - y 0|, false, answer⟩ with hwd
  obtain ⟨Ω, i1, P, i2, G, Y, h⟩ := observed_exists bs lineLearner.trainee.R.kernel rfl w (fun _ => 1) 5 1 (by norm_num) zero_le_one
    (fun p : Fin 2 => rowPt lineTest w.f p)
  obtain ⟨idx, nn, -, S, S', -, -, h3, h4⟩ := C73_means_partial bs lineLearner lineLearner2 rfl rfl ⟨rfl, rfl⟩ rfl rfl w hw hsep
    (fun _ => 1) (fun _ => 2) ⟨1, one_pos, rfl, fun _ => rfl⟩ ⟨2, two_pos, rfl, fun _ => rfl⟩
    3 (by norm_num) [] (fun h => absurd h (lt_irrefl 3)) (by norm_num [hwd]) (by norm_num [hwd]) 1 rfl
    (.inl one_pos) trivial (.inl one_pos) 5 P _ G Y h .mse (.inl rfl) []
  exact ⟨w, Ω, i1, P, i2, Y, idx, nn, S, S', rfl, h3, h4⟩

/-- Non-vacuity of `C73_lool_partial`: responses drawn without noise from `lineNoiseless`; the model `lineFixed` with noise. -/
example (bs : Flt → ℝ → ℝ) : ∃ (w : NNWrapper) (Ω : Type) (_ : MeasurableSpace Ω) (P : Measure Ω) (_ : IsProbabilityMeasure P)
    (Y : Ω → Tensor ℝ) (idx : List Nat) (nn : Tensor Int) (S S' : Ω → ℝ), w.train = lineTrain ∧
      (∀ ω, ∃ d, lineNoiseless.trainData (idx, nn) w.train (Y ω) = .ok d ∧ lineNoiseless.score bs .lool [] d = .ok (some (S ω)) ∧
        lineFixed.score bs .lool [] d = .ok (some (S' ω))) ∧ ∫ ω, S' ω ∂P ≤ ∫ ω, S ω ∂P := by
  obtain ⟨answer, hw⟩ := line_exact
  have hsep := line_separated answer
  set w : NNWrapper := ⟨3, 1, lineTrain, 2, fun x y => |x 0 - y 0|, false, answer⟩ with hwd
  obtain ⟨Ω, i1, P, i2, G, Y, h⟩ := observed_exists bs lineNoiseless.trainee.R.kernel rfl w (fun _ => 1) lineNoiseless.scale 0
    (by norm_num [lineNoiseless]) le_rfl (fun p : Fin 2 => rowPt lineTest w.f p)
  obtain ⟨idx, nn, -, S, S', -, -, h3, h4⟩ := C73_lool_partial bs lineNoiseless lineFixed rfl rfl rfl rfl ⟨rfl, rfl⟩ rfl rfl w hw hsep
    (fun _ => 1) (fun _ => 1) ⟨1, one_pos, rfl, fun _ => rfl⟩ ⟨1, one_pos, rfl, fun _ => rfl⟩
    3 (by norm_num) [] (fun h => absurd h (lt_irrefl 3)) (by norm_num [hwd]) (by norm_num [hwd]) rfl
    trivial (.inl one_pos) (by norm_num [lineNoiseless]) (by norm_num [lineFixed]) P _ G Y h []
  exact ⟨w, Ω, i1, P, i2, Y, idx, nn, S, S', rfl, h3, h4⟩

/-- The hypotheses of `C73_lool_fails` are met by `lineFixed`. -/
example (bs : Flt → ℝ → ℝ) : ∃ (w : NNWrapper) (Ω : Type) (_ : MeasurableSpace Ω) (P : Measure Ω) (_ : IsProbabilityMeasure P)
    (Y : Ω → Tensor ℝ) (idx : List Nat) (nn : Tensor Int) (c : ℝ) (S S' : Ω → ℝ), w.train = lineTrain ∧ 1 < c ∧
      (∀ ω, ∃ d, lineFixed.trainData (idx, nn) w.train (Y ω) = .ok d ∧ lineFixed.score bs .lool [] d = .ok (some (S ω)) ∧
        ({ lineFixed with scale := c * 2, boundScale := c * 2 } : Learner).score bs .lool [] d = .ok (some (S' ω))) ∧
      ∫ ω, S ω ∂P < ∫ ω, S' ω ∂P := by
  obtain ⟨answer, hw⟩ := line_exact
  have hsep := line_separated answer
  set w : NNWrapper := ⟨3, 1, lineTrain, 2, fun x y => |x 0 - y 0|, false, answer⟩ with hwd
  obtain ⟨Ω, i1, P, i2, G, Y, h⟩ := observed_exists bs lineFixed.trainee.R.kernel rfl w (fun _ => 1) lineFixed.scale 1
    (by norm_num [lineFixed]) zero_le_one (fun p : Fin 2 => rowPt lineTest w.f p)
  obtain ⟨idx, nn, -, c, hc, S, S', -, -, h3, h4⟩ := C73_lool_fails bs lineFixed rfl rfl rfl w hw hsep
    (fun _ => 1) ⟨1, one_pos, rfl, fun _ => rfl⟩
    3 (by norm_num) [] (fun h => absurd h (lt_irrefl 3)) (by norm_num [hwd]) (by norm_num [hwd]) 1 rfl one_pos
    (by norm_num [lineFixed]) P _ G Y h []
  exact ⟨w, Ω, i1, P, i2, Y, idx, nn, c, S, S', rfl, hc, h3, h4⟩

theorem line_feasible (y : ℝ) (h1 : 1 ≤ y) (h3 : y ≤ 3) : lineLearner.Feasible [("length_scale", Flt.fin y)] := by
  have hp : lineLearner.gp.params = [("length_scale", ⟨Flt.fin 1, Flt.fin 1, Flt.fin 3, false⟩),
      ("noise", ⟨Flt.fin 1, Flt.fin 0, Flt.fin 0, true⟩)] := by
    simp [lineLearner, Learner.gp, GP.params, Kernel.named, LenScale.named]
  refine ⟨by simp [Learner.freeNames, hp], fun np hnp hfree => ?_⟩
  rw [hp] at hnp
  simp only [List.mem_cons, List.not_mem_nil, or_false] at hnp
  rcases hnp with rfl | rfl
  · refine ⟨Flt.fin y, by simp [Dict.get?], (y : EReal), (1 : ℝ), (3 : ℝ), rfl, rfl, rfl, ?_, ?_⟩
    · exact_mod_cast h1
    · exact_mod_cast h3
  · simp at hfree

theorem line_accepts (y : ℝ) (h1 : 1 ≤ y) (h3 : y ≤ 3) : lineLearner.trainee.R.kernel.Accepts [("length_scale", Flt.fin y)] :=
  ⟨feasible_unreserved (line_feasible y h1 h3), fun _ h => (nomatch h), trivial⟩

/-- Non-vacuity of `C73_objective_partial`: training `lineLearner`, whose length scale is free within `[1, 3]`; the truth is 1. -/
example (bs : Flt → ℝ → ℝ) : ∃ (w : NNWrapper) (Ω : Type) (_ : MeasurableSpace Ω) (P : Measure Ω) (_ : IsProbabilityMeasure P)
    (Y : Ω → Tensor ℝ) (idx : List Nat) (nn : Tensor Int) (S S' : Ω → ℝ), w.train = lineTrain ∧
      (∀ ω, ∃ d, lineLearner.trainData (idx, nn) w.train (Y ω) = .ok d ∧
        lineLearner.objective bs .mse [] d [("length_scale", Flt.fin 1)] = .ok (some (S ω)) ∧
        lineLearner.objective bs .mse [] d [("length_scale", Flt.fin 2)] = .ok (some (S' ω))) ∧ ∫ ω, S' ω ∂P ≤ ∫ ω, S ω ∂P := by
  obtain ⟨answer, hw⟩ := line_exact
  have hsep := line_separated answer
  set w : NNWrapper := ⟨3, 1, lineTrain, 2, fun x y => |x 0 - y 0|, false, answer⟩ with hwd
  obtain ⟨Ω, i1, P, i2, G, Y, h⟩ := observed_exists bs lineLearner.trainee.R.kernel rfl w (fun _ => 1) 5 1 (by norm_num) zero_le_one
    (fun p : Fin 2 => rowPt lineTest w.f p)
  obtain ⟨idx, nn, -, S, S', -, -, h3, h4⟩ := C73_objective_partial bs lineLearner lineLearner lineLearner2 rfl
    [("length_scale", Flt.fin 1)] [("length_scale", Flt.fin 2)] (line_feasible 1 le_rfl (by norm_num)) (line_accepts 1 le_rfl (by norm_num))
    rfl (line_feasible 2 (by norm_num) (by norm_num)) (line_accepts 2 (by norm_num) (by norm_num)) rfl
    rfl rfl ⟨rfl, rfl⟩ ⟨rfl, rfl⟩ rfl rfl w hw hsep
    (fun _ => 1) (fun _ => 2) ⟨1, one_pos, rfl, fun _ => rfl⟩ ⟨2, two_pos, rfl, fun _ => rfl⟩
    3 (by norm_num) [] (fun h => absurd h (lt_irrefl 3)) (by norm_num [hwd]) (by norm_num [hwd]) 1 rfl
    (.inl one_pos) trivial (.inl one_pos) 5 P _ G Y h .mse (.inl rfl) []
  exact ⟨w, Ω, i1, P, i2, Y, idx, nn, S, S', rfl, h3, h4⟩

end MuyGPyS
