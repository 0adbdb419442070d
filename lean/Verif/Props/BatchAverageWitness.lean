import Verif.Props.BatchAverage
import Verif.Props.SmoothWitness
import Verif.Props.TruthWitness

/-! # C97: non-vacuity -/

namespace MuyGPyS
open Py

/-- Non-vacuity of `C97_random_batch`: `lineLearner` at length scale 2; batches of two of the three training points. -/
example (bs : Flt → ℝ → ℝ) : ∃ (w : NNWrapper) (S : List Nat → ℝ) (T : ℝ), w.train = lineTrain ∧
    lineLearner.batchObjective bs .mse [] w lineTargets [("length_scale", Flt.fin 2)] 2 [2, 0] = .ok (some (S [2, 0])) ∧
    lineLearner.batchObjective bs .mse [] w lineTargets [("length_scale", Flt.fin 2)] 2 [0, 2] = .ok (some (S [2, 0])) ∧
    lineLearner.batchObjective bs .mse [] w lineTargets [("length_scale", Flt.fin 2)] 3 [] = .ok (some T) ∧ Spec.drawAverage 3 2 S = T := by
  obtain ⟨answer, hw⟩ := line_exact
  obtain ⟨S, T, h1, h2, h3, h4⟩ := C97_random_batch bs lineLearner lineLearner2 rfl [("length_scale", Flt.fin 2)]
    (line_feasible 2 one_le_two (by norm_num)) (line_accepts 2 one_le_two (by norm_num)) rfl ⟨rfl, rfl⟩ rfl
    ⟨3, 1, lineTrain, 2, fun x y => |x 0 - y 0|, false, answer⟩ hw (fun _ => 2) ⟨2, two_pos, rfl, fun _ => rfl⟩ le_rfl 1 rfl (.inl ⟨rfl, .inl one_pos⟩)
    lineTargets rfl .mse trivial []
  have hd : ∀ draw : List Nat, draw = [2, 0] ∨ draw = [0, 2] → IsDraw 3 2 draw := by
    rintro draw (rfl | rfl) <;> exact ⟨rfl, by decide, fun x hx => by show x < 3; fin_cases hx <;> norm_num⟩
  refine ⟨⟨3, 1, lineTrain, 2, fun x y => |x 0 - y 0|, false, answer⟩, S, T, rfl, h1 2 [2, 0] two_pos (by norm_num) (hd _ (.inl rfl)), ?_,
    h2 3 [] le_rfl, (h4 2 two_pos (by norm_num)).1 rfl⟩
  rw [h3 [2, 0] [0, 2] (List.Perm.swap _ _ _)]
  exact h1 2 [0, 2] two_pos (by norm_num) (hd _ (.inr rfl))

/-- Non-vacuity of `C97_random_scale`: all responses 1. -/
example (bs : Flt → ℝ → ℝ) : ∃ (w : NNWrapper) (S : List Nat → ℝ) (T : ℝ) (L' : Learner), w.train = lineTrain ∧
    lineLearner.batchScale bs [] w ⟨[3], fun _ => 1⟩ 3 [] = .ok L' ∧ L'.scale = T ∧ Spec.drawAverage 3 2 S = T := by
  obtain ⟨answer, hw⟩ := line_exact
  obtain ⟨S, T, h1, h2, h3, h4⟩ := C97_random_scale bs lineLearner rfl rfl
    ⟨3, 1, lineTrain, 2, fun x y => |x 0 - y 0|, false, answer⟩ hw two_pos (fun _ => 1) ⟨1, one_pos, rfl, fun _ => rfl⟩ le_rfl 1 rfl (.inl ⟨rfl, .inl one_pos⟩)
    ⟨[3], fun _ => 1⟩ rfl (fun i _ => one_ne_zero) []
  obtain ⟨L', l1, l2⟩ := h2 3 [] le_rfl
  exact ⟨_, S, T, L', rfl, l1, l2, h4 2 two_pos (by norm_num)⟩

/-- `lineFreeMatern` with an estimated scale. -/
noncomputable def lineMaternScale : Learner := { lineFreeMatern with scaleKind := .analytic 1 }

/-- Non-vacuity of `C97_random_scale` with the general Matérn implementation: smoothness 5/2, noise variance 1, all responses 1. -/
example : ∃ (w : NNWrapper) (S : List Nat → ℝ) (T : ℝ) (L' : Learner), w.train = lineTrain ∧
    lineMaternScale.batchScale maternGen [] w ⟨[3], fun _ => 1⟩ 3 [] = .ok L' ∧ L'.scale = T ∧ Spec.drawAverage 3 2 S = T := by
  obtain ⟨answer, hw⟩ := line_exact
  obtain ⟨S, T, h1, h2, h3, h4⟩ := C97_random_scale maternGen lineMaternScale
    (by simp [Learner.Made, Learner.make, lineMaternScale, lineFreeMatern, setMaternFn]) rfl
    ⟨3, 1, lineTrain, 2, fun x y => |x 0 - y 0|, false, answer⟩ hw two_pos (fun _ => 1) ⟨1, one_pos, rfl, fun _ => rfl⟩ le_rfl 1 rfl
    (.inr ⟨rfl, rfl, rfl, line_distinct, _, 5 / 2, rfl, rfl, by norm_num, (deficit_two_up (by norm_num)).trans_lt (by norm_num)⟩)
    ⟨[3], fun _ => 1⟩ rfl (fun i _ => one_ne_zero) []
  obtain ⟨L', l1, l2⟩ := h2 3 [] le_rfl
  exact ⟨_, S, T, L', rfl, l1, l2, h4 2 two_pos (by norm_num)⟩

end MuyGPyS
