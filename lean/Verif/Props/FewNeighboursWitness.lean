import Verif.Props.FewNeighboursWorst

/-! # C119: concrete cases -/

namespace MuyGPyS
open Py Matrix MeasureTheory ProbabilityTheory

/-- An exact index for the training points 0, 1, 3 with two neighbours, and one with all three. -/
theorem line_two_three : ∃ (answer answer' : (Fin 1 → ℝ) → Nat → List Nat),
    NNWrapper.Exact ⟨3, 1, lineTrain, 2, fun x y => |x 0 - y 0|, false, answer⟩ ∧
    NNWrapper.Exact ⟨3, 1, lineTrain, 3, fun x y => |x 0 - y 0|, false, answer'⟩ := by
  obtain ⟨answer, hw⟩ := line_exact
  obtain ⟨answer', hw'⟩ := exact_index_exists 3 1 3 lineTrain rfl (fun x y => |x 0 - y 0|) false
  exact ⟨answer, answer', hw, hw'⟩

/-- The hypotheses of `C119_worst` and of `C119_worst_matern` are met: two neighbours of three, noise 1. -/
example (bs : Flt → ℝ → ℝ) : ∃ w w' : NNWrapper, w.train = lineTrain ∧ w.nnCount = 2 ∧ w'.train = lineTrain ∧ w'.nnCount = 3 ∧
    (∃ κ, PriceBound bs lineModel w w' (oneTest 2) 1 κ 1 1) ∧ ∀ ν > 0, ∃ κ, PriceBound maternGen (lineMaternAt ν) w w' (oneTest 2) 1 κ (1 - deficit ν) 1 := by
  obtain ⟨answer, answer', hw, hw'⟩ := line_two_three
  refine ⟨_, _, rfl, rfl, rfl, rfl, ⟨_, C119_worst bs lineModel rfl rfl rfl one_pos _ hw 3 answer' hw' (oneTest 2) 1 (fun _ => 1)
    ⟨1, one_pos, rfl, fun _ => rfl⟩ rfl one_pos two_pos (by show 2 ≤ 3; norm_num) le_rfl (.inr rfl) 1 rfl (.inl one_pos)⟩, fun ν hν => ⟨_,
    C119_worst_matern (lineMaternAt ν) ν 1 1 hν (deficit_lt_one hν) one_pos _ hw 3 answer' hw' (oneTest 2) 1 (fun _ => 1) (lineMaternAt_general ν) rfl
      one_pos two_pos (by show 2 ≤ 3; norm_num) le_rfl (.inr rfl) line_distinct (line_new answer)⟩⟩

/-- The hypotheses of `C119_average` are met: there are such data. -/
example (bs : Flt → ℝ → ℝ) : ∃ (w w' : NNWrapper) (Ω : Type) (_ : MeasurableSpace Ω) (P : Measure Ω) (_ : IsProbabilityMeasure P) (Y μ μ' : Ω → Tensor ℝ)
    (v v' : Tensor ℝ), w.train = lineTrain ∧ w.nnCount = 2 ∧ w'.nnCount = 3 ∧ (∀ ω, regressAny bs lineModel w (oneTest 2) lineTrain (Y ω) = .ok (μ ω, v)) ∧
      (∀ ω, regressAny bs lineModel w' (oneTest 2) lineTrain (Y ω) = .ok (μ' ω, v')) ∧
      ∫ ω, ((μ' ω).get [0] - (μ ω).get [0]) ^ 2 ∂P = v.get [0] - v'.get [0] := by
  obtain ⟨answer, answer', hw, hw'⟩ := line_two_three
  set w : NNWrapper := ⟨3, 1, lineTrain, 2, fun x y => |x 0 - y 0|, false, answer⟩ with hwd
  obtain ⟨Ω, i1, P, i2, G, Y, h⟩ := observedWith_exists w (lineModel.kernel.covFn bs fun _ => 1) 1 zero_le_one (fun _ => 1) (fun _ _ => zero_le_one)
    (fun p : Fin 1 => rowPt (oneTest 2) w.f p) fun z => by
      let φ := Fintype.equivFin (Fin w.N ⊕ Fin 1)
      have := (value_definite bs ((lineModel.kernel.smoothness.map (·.val)).getD none) lineModel.kernel.fn lineModel.kernel.deform.metric rfl
        fun i c => z (φ.symm i) c / (1 : ℝ)).1
      have h2 := this.submatrix φ
      convert h2 using 1
      ext a b
      simp [KernelObj.covFn]
  obtain ⟨μ, μ', v, v', r1, r2, -, -, -, r3⟩ := C119_average bs lineModel rfl rfl rfl w hw 3 answer' hw' (oneTest 2) 1 (fun _ => 1)
    ⟨1, one_pos, rfl, fun _ => rfl⟩ rfl one_pos two_pos (by show 2 ≤ 3; norm_num) le_rfl (.inr rfl) 1 rfl (.inl one_pos) P G Y h
  exact ⟨w, _, Ω, i1, P, i2, Y, μ, μ', v, v', rfl, rfl, rfl, r1, r2, (r3 0).2.2⟩

/-- The hypotheses of `C119_average_matern` are met. -/
example (ν : ℝ) (hν : 0 < ν) : ∃ (w w' : NNWrapper) (Ω : Type) (_ : MeasurableSpace Ω) (P : Measure Ω) (_ : IsProbabilityMeasure P)
    (Y μ μ' : Ω → Tensor ℝ) (v v' : Tensor ℝ), w.train = lineTrain ∧ w.nnCount = 2 ∧ w'.nnCount = 3 ∧
      (∀ ω, regressAny maternGen (lineMaternAt ν) w (oneTest 2) lineTrain (Y ω) = .ok (μ ω, v)) ∧
      (∀ ω, regressAny maternGen (lineMaternAt ν) w' (oneTest 2) lineTrain (Y ω) = .ok (μ' ω, v')) ∧
      ∫ ω, ((μ' ω).get [0] - (μ ω).get [0]) ^ 2 ∂P = v.get [0] - v'.get [0] := by
  obtain ⟨answer, answer', hw, hw'⟩ := line_two_three
  set w : NNWrapper := ⟨3, 1, lineTrain, 2, fun x y => |x 0 - y 0|, false, answer⟩ with hwd
  have hδ := deficit_lt_one hν
  obtain ⟨Ω, i1, P, i2, G, Y, h⟩ := observedWith_exists w (maternProcess ν fun _ => 1) 1 zero_le_one (fun _ => 1 - deficit ν) (fun _ _ => by linarith)
    (fun p : Fin 1 => rowPt (oneTest 2) w.f p) fun z => maternProcess_psd hν _ (fun _ => one_pos) z
  obtain ⟨μ, μ', v, v', r1, r2, -, -, -, r3⟩ := C119_average_matern (lineMaternAt ν) ν 1 1 hν hδ w hw 3 answer' hw' (oneTest 2) 1 (fun _ => 1)
    (lineMaternAt_general ν) rfl one_pos two_pos (by show 2 ≤ 3; norm_num) le_rfl (.inr rfl) line_distinct (line_new answer) P G Y h
  exact ⟨w, _, Ω, i1, P, i2, Y, μ, μ', v, v', rfl, rfl, rfl, r1, r2, (r3 0).2.2⟩

end MuyGPyS
