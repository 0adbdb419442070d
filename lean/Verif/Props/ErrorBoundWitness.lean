import Verif.Props.Ridge
import Verif.Props.InformationWitness
import Verif.Props.PipelineWitness

/-! # C95, C96: non-vacuity -/

namespace MuyGPyS
open Py Matrix

/-- A bell around the point `2`, and its values at the training points `0, 1, 3`. -/
noncomputable def bell (x : Fin 1 → ℝ) : ℝ := Real.exp (-(2 - x 0) ^ 2 / 2)

@[inherit_doc bell] noncomputable def bellTargets : Tensor ℝ := ⟨[3], fun i => bell (rowPt lineTrain 1 i)⟩

theorem bell_energy (bs : Flt → ℝ → ℝ) : Spec.EnergyAtMost (lineModel.kernel.covFn bs (fun _ : Fin 1 => (1 : ℝ))) 1 bell := by
  have h := combination_energy (covFn_comm bs lineModel.kernel fun _ : Fin 1 => (1 : ℝ))
    (fun n x d => covFn_psd bs lineModel.kernel rfl (fun _ : Fin 1 => (1 : ℝ)) x d) (fun _ : Fin 1 => fun _ : Fin 1 => (2 : ℝ)) fun _ => 1
  have e : Spec.combination (lineModel.kernel.covFn bs (fun _ : Fin 1 => (1 : ℝ))) (fun _ : Fin 1 => fun _ : Fin 1 => (2 : ℝ)) (fun _ => 1) = bell := by
    funext x
    simp only [Spec.combination, Finset.univ_unique, Finset.sum_singleton, one_mul, line_cov]
    rfl
  rw [e] at h
  simpa [line_cov] using h

/-- Non-vacuity of `C95_exact_responses`, without noise: the squared error of the prediction of the bell at `1.5` is at most the reported variance. -/
example (bs : Flt → ℝ → ℝ) : ∃ w : NNWrapper, w.Exact ∧ w.nnCount = 2 ∧ ∃ μ v,
    regressAny bs lineModel0 w (oneTest 1.5) w.train bellTargets = .ok (μ, v) ∧ (μ.get [0] - Real.exp (-(2 - 1.5) ^ 2 / 2)) ^ 2 ≤ v.get [0] := by
  obtain ⟨answer, hw⟩ := line_exact
  obtain ⟨μ, v, h1, -, -, h2⟩ := C95_exact_responses bs lineModel0 rfl rfl rfl one_pos _ hw (oneTest 1.5) bellTargets 1 (fun _ => 1)
    ⟨1, one_pos, rfl, fun _ => rfl⟩ rfl rfl one_pos two_pos (by norm_num) trivial line_distinct 1 bell (bell_energy bs) fun i _ =>
      Tensor.get1 bellTargets rfl i
  refine ⟨_, hw, rfl, μ, v, h1, ?_⟩
  have := h2 0 one_pos
  simpa [bell, oneTest_row, lineModel0, MuyGPS.make, one_mul] using this

/-- Non-vacuity of `C95_noisy_responses`: the responses are the values of the bell, with errors of one tenth, the noise of the model is 1. -/
example (bs : Flt → ℝ → ℝ) : ∃ w : NNWrapper, w.Exact ∧ w.nnCount = 2 ∧ ∃ μ v,
    regressAny bs lineModel w (oneTest 1.5) w.train ⟨[3], fun i => bell (rowPt lineTrain 1 i) + 0.1⟩ = .ok (μ, v) ∧
      (μ.get [0] - Real.exp (-(2 - 1.5) ^ 2 / 2)) ^ 2 ≤ (1 + 2 * 0.1 ^ 2) * v.get [0] := by
  obtain ⟨answer, hw⟩ := line_exact
  obtain ⟨μ, v, h1, -, -, h2⟩ := C95_noisy_responses bs lineModel rfl rfl rfl one_pos _ hw (oneTest 1.5)
    ⟨[3], fun i => bell (rowPt lineTrain 1 i) + 0.1⟩ 1 (fun _ => 1)
    ⟨1, one_pos, rfl, fun _ => rfl⟩ rfl rfl one_pos two_pos (by norm_num) 1 rfl one_pos 1 bell (bell_energy bs) 0.1 (fun i _ => by
      rw [Tensor.get1 _ (show Tensor.shape (⟨[3], fun i => bell (rowPt lineTrain 1 i) + 0.1⟩ : Tensor ℝ) = [3] from rfl)]
      show |bell (rowPt lineTrain 1 i) + 0.1 - bell (rowPt lineTrain 1 i)| ≤ 0.1
      rw [add_sub_cancel_left, abs_of_pos (by norm_num)])
  refine ⟨_, hw, rfl, μ, v, h1, ?_⟩
  have := h2 0 one_pos
  simpa [bell, oneTest_row, lineModel, MuyGPS.make, one_mul] using this

/-- Non-vacuity of `C95_attained`: at `1.5` the worst case is attained. -/
example (bs : Flt → ℝ → ℝ) : ∃ w : NNWrapper, w.Exact ∧ ∃ v : Tensor ℝ, ∀ p < 1, ∃ g,
    Spec.EnergyAtMost (lineModel0.kernel.covFn bs (fun _ => 1)) (v.get [p] / lineModel0.gp.boundScale) g ∧
    ∀ Y : Tensor ℝ, Y.shape = [w.N] → (∀ i < w.N, Y.get [i] = g (rowPt w.train w.f i)) →
        ∃ μ, regressAny bs lineModel0 w (oneTest 1.5) w.train Y = .ok (μ, v) ∧ (μ.get [p] - g (rowPt (oneTest 1.5) w.f p)) ^ 2 =
          v.get [p] / lineModel0.gp.boundScale * (v.get [p] / lineModel0.gp.boundScale) := by
  obtain ⟨answer, hw⟩ := line_exact
  exact ⟨_, hw, C95_attained bs lineModel0 rfl rfl rfl one_pos _ hw (oneTest 1.5) 1 (fun _ => 1)
    ⟨1, one_pos, rfl, fun _ => rfl⟩ rfl one_pos two_pos (by norm_num) rfl line_distinct⟩

/-- Non-vacuity of `C96_ridge`: the fit to the responses `0, 1, 0` costs no more than the bell. -/
example (bs : Flt → ℝ → ℝ) : ∃ w : NNWrapper, w.Exact ∧ w.nnCount = 2 ∧ ∃ μ v,
    regressAny bs lineModel w (oneTest 1.5) w.train lineTargets = .ok (μ, v) ∧ ∃ (nb : Fin 2 → Nat) (f : (Fin 1 → ℝ) → ℝ) (Ef : ℝ),
      μ.get [0] = f (rowPt (oneTest 1.5) 1 0) ∧
      Ef + (∑ j, (lineTargets.get [nb j] - f (rowPt lineTrain 1 (nb j))) ^ 2) / 1 ≤
        1 + (∑ j, (lineTargets.get [nb j] - bell (rowPt lineTrain 1 (nb j))) ^ 2) / 1 := by
  obtain ⟨answer, hw⟩ := line_exact
  obtain ⟨μ, v, h1, -, -, h2⟩ := C96_ridge bs lineModel rfl rfl rfl one_pos _ hw (oneTest 1.5) lineTargets 1 (fun _ => 1)
    ⟨1, one_pos, rfl, fun _ => rfl⟩ rfl rfl one_pos two_pos (by norm_num) 1 rfl one_pos
  obtain ⟨nb, f, Ef, -, h3, h4, -⟩ := h2 0 one_pos
  exact ⟨_, hw, rfl, μ, v, h1, nb, f, Ef, h4, h3.best 1 bell (bell_energy bs)⟩

/-- Non-vacuity of `C96_interpolant`: if the responses are values of the bell, the interpolant has energy at most 1, and the error is as small as that
allows. -/
example (bs : Flt → ℝ → ℝ) : ∃ w : NNWrapper, w.Exact ∧ w.nnCount = 2 ∧ ∃ μ v,
    regressAny bs lineModel0 w (oneTest 1.5) w.train bellTargets = .ok (μ, v) ∧ ∃ Ef ≤ 1,
      (Real.exp (-(2 - 1.5) ^ 2 / 2) - μ.get [0]) ^ 2 ≤ (1 - Ef) * v.get [0] := by
  obtain ⟨answer, hw⟩ := line_exact
  obtain ⟨μ, v, h1, -, -, h2⟩ := C96_interpolant bs lineModel0 rfl rfl rfl one_pos _ hw (oneTest 1.5) bellTargets 1 (fun _ => 1)
    ⟨1, one_pos, rfl, fun _ => rfl⟩ rfl rfl one_pos two_pos (by norm_num) rfl line_distinct
  obtain ⟨nb, f, Ef, -, h3, -, h4⟩ := h2 0 one_pos
  have hv : ∀ j, bell (rowPt lineTrain 1 (nb j)) = bellTargets.get [nb j] := fun j => (Tensor.get1 bellTargets rfl _).symm
  refine ⟨_, hw, rfl, μ, v, h1, Ef, h3.best 1 bell (bell_energy bs) hv, ?_⟩
  have := h4 1 bell (bell_energy bs) hv
  simpa [bell, oneTest_row, lineModel0, MuyGPS.make, one_mul] using this

end MuyGPyS
