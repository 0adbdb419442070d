import Verif.Props.Dense
import Verif.Props.ExtremesWitness
import Verif.Props.ErrorBoundWitness

/-! # C106: concrete models and training points that meet the hypotheses -/

namespace MuyGPyS
open Py Matrix

theorem line_euclidean (answer : (Fin 1 → ℝ) → Nat → List Nat) :
    NNWrapper.Euclidean ⟨3, 1, lineTrain, 2, fun x y => |x 0 - y 0|, false, answer⟩ := by
  refine ⟨Real.sqrt, fun a ha b hb hab => Real.sqrt_lt_sqrt ha hab, fun x y => ?_⟩
  show |x 0 - y 0| = √(sqDist x y)
  unfold sqDist
  rw [Fin.sum_univ_one, Real.sqrt_sq_eq_abs]

theorem line_zero : rowPt lineTest 1 0 = rowPt lineTrain 1 0 := by
  funext c
  fin_cases c
  simp [rowPt, lineTrain, lineTest, Tensor.get, Tensor.ravel]

/-- Non-vacuity of `C106_floor` and `C106_dense`: with unit noise, two neighbours and a training point at the test point, the variance is between a
third and a half. -/
example (bs : Flt → ℝ → ℝ) : ∃ w : NNWrapper, w.Exact ∧ w.Euclidean ∧ w.train = lineTrain ∧ ∃ μ v,
    regressAny bs (lineHyper 1 1 1) w lineTest lineTrain lineTargets = .ok (μ, v) ∧ 1 / 3 ≤ v.get [0] ∧ v.get [0] ≤ 1 / 2 := by
  obtain ⟨answer, hw⟩ := line_exact
  obtain ⟨μ, v, r1, -, -, r2⟩ := C106_floor bs lineModel.kernel rfl _ hw lineTest lineTargets 2 rfl rfl two_pos two_pos (by show 2 ≤ 3; norm_num)
    (lineHyper 1 1 1) (fun _ => 1) 1 1 (lineHyper_has one_pos) one_pos zero_le_one
  obtain ⟨μ', v', q1, -, -, q2⟩ := C106_dense bs lineModel.kernel rfl _ hw (line_euclidean answer) lineTest lineTargets 2 rfl rfl two_pos two_pos
    (by show 2 ≤ 3; norm_num) (lineHyper 1 1 1) (fun _ => 1) 1 1 (lineHyper_has one_pos) (.inl one_pos) zero_le_one
  rw [r1] at q1
  obtain ⟨rfl, rfl⟩ := Prod.mk.inj (Except.ok.inj q1)
  refine ⟨_, hw, line_euclidean answer, rfl, μ, v, r1, ?_, ?_⟩
  · have := r2 0 two_pos
    norm_num at this ⊢
    exact this
  · have := q2 0 two_pos {0} 0 0 (by simp) (by rw [Finset.card_singleton]; show 1 ≤ 2; norm_num) (by
      intro i hi
      obtain rfl := Finset.mem_singleton.1 hi
      refine ⟨three_pos, le_of_eq ?_⟩
      show sqDist (rowPt lineTest 1 0) (rowPt lineTrain 1 0) = 0
      rw [line_zero]
      simp [sqDist]) (fun y hy => by
      have h0 : y = rowPt lineTest 1 0 := by
        funext c
        have h : ∑ c, (rowPt lineTest 1 0 c - y c) ^ 2 ≤ 0 := by unfold sqDist at hy; exact hy
        have := Finset.single_le_sum (f := fun c => (rowPt lineTest 1 0 c - y c) ^ 2) (fun _ _ => sq_nonneg _) (Finset.mem_univ c)
        have h2 : (rowPt lineTest 1 0 c - y c) ^ 2 = 0 := le_antisymm (this.trans h) (sq_nonneg _)
        have := pow_eq_zero_iff (two_ne_zero) |>.1 h2
        linarith
      rw [h0]
      show 1 - 0 ≤ lineModel.kernel.covFn bs _ (rowPt lineTest 1 0) (rowPt lineTest 1 0)
      rw [covFn_self bs lineModel.kernel rfl]
      norm_num)
    rw [Finset.card_singleton] at this
    norm_num at this ⊢
    exact this

/-- Non-vacuity of `C106_consistent`: the bell is predicted at the training point `0` and in a neighbourhood of it. -/
example (bs : Flt → ℝ → ℝ) (ε : ℝ) (hε : 0 < ε) : ∃ (w : NNWrapper) (ρ : ℝ), w.Exact ∧ w.train = lineTrain ∧ 0 < ρ ∧ ∀ t : ℝ, t ^ 2 ≤ ρ → ∃ μ v,
    regressAny bs (lineHyper 1 0 1) w (oneTest t) lineTrain bellTargets = .ok (μ, v) ∧
      |μ.get [0] - Real.exp (-(2 - t) ^ 2 / 2)| < ε ∧ v.get [0] < ε := by
  obtain ⟨answer, hw⟩ := line_exact
  obtain ⟨ρ, hρ, h⟩ := C106_consistent bs lineModel.kernel rfl (fun _ : Fin 1 => 1) (fun _ => one_pos) 1 1 one_pos ε hε
  refine ⟨_, ρ, hw, rfl, hρ, fun t ht => ?_⟩
  obtain ⟨μ, v, r1, -, -, r2⟩ := h bell (bell_energy bs) 3 2 lineTrain _ false answer hw (line_euclidean answer) line_distinct two_pos
    (by norm_num) (lineHyper 1 0 1) (oneTest t) bellTargets 1 (lineHyper_has one_pos) rfl one_pos rfl fun i _ => Tensor.get1 bellTargets rfl i
  refine ⟨μ, v, r1, ?_⟩
  have e : sqDist (rowPt (oneTest t) 1 0) (rowPt lineTrain 1 0) = t ^ 2 := by
    have : rowPt lineTrain 1 0 0 = 0 := by simp [rowPt, lineTrain, Tensor.get, Tensor.ravel]
    unfold sqDist
    rw [Fin.sum_univ_one, oneTest_row, this, sub_zero]
  have := r2 0 one_pos ⟨0, three_pos, e.trans_le ht⟩
  simpa [bell, oneTest_row] using this

end MuyGPyS
