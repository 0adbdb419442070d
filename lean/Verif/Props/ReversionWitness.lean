import Verif.Props.Reversion
import Verif.Props.PipelineWitness

/-! # Non-vacuity of C69 -/

namespace MuyGPyS
open Py

/-- The noiseless model of `PipelineWitness.lean` on its three training points: for every tolerance there are test points far enough,
and the prediction there succeeds and is the prior within the tolerance. -/
example (ε : ℝ) (hε : 0 < ε) : ∃ (w : NNWrapper) (Q μ v : Tensor ℝ), w.Exact ∧ w.train = lineTrain ∧ Q.shape = [1, 1] ∧
    regressAny maternGen lineModel0 w Q lineTrain lineTargets = .ok (μ, v) ∧ μ.shape = [1] ∧ |μ.get [0]| < ε ∧
    1 - ε < v.get [0] ∧ v.get [0] < 1 := by
  obtain ⟨answer, hw⟩ := line_exact
  obtain ⟨ρ, hρ⟩ := C69_prior_always lineModel0 rfl rfl rfl one_pos _ hw lineTargets (fun _ => 1)
    ⟨1, one_pos, rfl, fun _ => rfl⟩ rfl two_pos (by show 2 ≤ 3; norm_num) ε hε
  obtain ⟨μ, v, h1, h2, h3, h4⟩ := hρ 1 ⟨[1, 1], fun _ => 4 + |ρ|⟩ one_pos rfl trivial line_distinct
  have h0 := h4 0 one_pos
  have hfar : FarFrom lineTrain 3 1 ρ (rowPt (⟨[1, 1], fun _ => 4 + |ρ|⟩ : Tensor ℝ) 1 0) := by
    intro i hi
    have e1 : ∀ c : Fin 1, rowPt (⟨[1, 1], fun _ => 4 + |ρ|⟩ : Tensor ℝ) 1 0 c = 4 + |ρ| := fun c => rfl
    have e2 : ∀ c : Fin 1, rowPt lineTrain 1 i c ≤ 3 := by
      intro c
      rw [Subsingleton.elim c 0]
      show lineTrain.get [i, 0] ≤ 3
      rw [Tensor.get2 lineTrain rfl]
      interval_cases i <;> simp [lineTrain] <;> norm_num
    simp only [Fin.sum_univ_one, e1]
    have := e2 0
    have hab := le_abs_self ρ
    have hn := abs_nonneg ρ
    rw [Real.sqrt_sq (by linarith)]
    linarith
  obtain ⟨a, b⟩ := h0.2 hfar
  exact ⟨_, _, μ, v, hw, rfl, rfl, h1, h2, a, b, h0.1⟩

/-- Matérn with free smoothness 1 on distances, unit length scale and noise. -/
noncomputable def lineMatern : Regressor :=
  ⟨⟨.isotropy .l2 ⟨Flt.fin 1, Flt.fin 0, Flt.fin 0, true⟩, some ⟨Flt.fin 1, Flt.fin (1 / 10), Flt.fin 10, false⟩, .gen⟩,
    MuyGPS.make (.homoscedastic 1) KernelObj.kout 1⟩

/-- The hypotheses of `C69_prior_matern` (and so of `C69_prior`) are met by the general Matérn kernel on the same points. -/
example (ε : ℝ) (hε : 0 < ε) : ∃ (w : NNWrapper) (ρ : ℝ), w.Exact ∧ w.train = lineTrain ∧ ∀ (m : Nat) (Q : Tensor ℝ), 0 < m →
    Q.shape = [m, w.f] → ∃ μ v, regressAny maternGen lineMatern w Q lineTrain lineTargets = .ok (μ, v) ∧
      ∀ p < m, FarFrom lineTrain w.N w.f ρ (rowPt Q w.f p) → |μ.get [p]| < ε := by
  obtain ⟨answer, hw⟩ := line_exact
  have hd : deficit 1 < 1 := by
    have := ((C62_correlation 1 one_pos).1 _ machEps_pos).1
    unfold deficit; linarith
  obtain ⟨ρ, hρ⟩ := C69_prior_matern lineMatern rfl rfl rfl rfl _ 1 one_pos rfl rfl 1 rfl _ (.inr ⟨line_distinct, hd⟩) hw
    lineTargets (fun _ => 1) ⟨1, one_pos, rfl, fun _ => rfl⟩ rfl two_pos (by show 2 ≤ 3; norm_num) ε hε
  refine ⟨_, ρ, hw, rfl, fun m Q hm hQ => ?_⟩
  obtain ⟨μ, v, h1, -, -, h2⟩ := hρ m Q hm hQ
  exact ⟨μ, v, h1, fun p hp hf => (h2 p hp hf).1⟩

end MuyGPyS
