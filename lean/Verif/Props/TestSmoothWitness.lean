import Verif.Props.TestSmooth
import Verif.Props.ContinuityFails
import Verif.Props.UpdateWitness
import Mathlib.Analysis.Calculus.Deriv.Abs

/-! # C107: where predictions are not differentiable, and concrete cases that meet the hypotheses -/

namespace MuyGPyS
open Py Matrix Topology

/-- Matérn 1/2 on distances, unit length scale and noise. -/
noncomputable def lineHalf : Regressor :=
  ⟨⟨.isotropy .l2 (fixedParam (Flt.fin 1)), some (fixedParam (Flt.fin (1 / 2))), .m05⟩, MuyGPS.make (.homoscedastic 1) KernelObj.kout 1⟩

theorem lineHalf_made : lineHalf.kernel.make = lineHalf.kernel := by
  have : setMaternFn (fixedParam (Flt.fin (1 / 2))) = .m05 := by
    simp [setMaternFn, fixedParam, Flt.fin]
  unfold lineHalf KernelObj.make
  simp only [this]

theorem lineHalf_cov (b : Flt → ℝ → ℝ) (x y : Fin 1 → ℝ) : lineHalf.kernel.covFn b (fun _ => 1) x y = Real.exp (-|x 0 - y 0|) := by
  unfold KernelObj.covFn lineHalf
  simp only [KFn.value, Deform.metric]
  rw [distOf_l2_sqrt, Fin.sum_univ_one, Real.sqrt_sq_eq_abs, div_one, div_one]

/-- **C107, where the claim fails**: with Matérn 1/2 the mean has a kink at a training point: near the training point `1` it is
`exp (-|x - 1|) / 2`, which no differentiable function is. -/
theorem C107_kink_fails (bs : Flt → ℝ → ℝ) : ∃ (R : Regressor) (w : NNWrapper) (Y : Tensor ℝ), R.kernel.make = R.kernel ∧ R.gp.kout = KernelObj.kout ∧
    R.kernel.fn = .m05 ∧ R.gp.noise = .homoscedastic 1 ∧ w.Exact ∧ w.Euclidean ∧ w.ClearAt (fun _ => 1) {1} ∧ Y.shape = [w.N] ∧
    ¬ ∃ M : (Fin w.f → ℝ) → ℝ, DifferentiableAt ℝ M (fun _ => 1) ∧
      ∀ t : ℝ, |t - 1| < 1 / 4 → ∃ μ v, regressAny bs R w (oneTest t) w.train Y = .ok (μ, v) ∧ μ.get [0] = M fun _ => t := by
  obtain ⟨answer, hw, heuc⟩ := line_single
  obtain ⟨r0, r1, r2⟩ := line_rows
  refine ⟨lineHalf, _, lineTargets, lineHalf_made, rfl, rfl, rfl, hw, heuc, ⟨rfl, fun i hi => ?_, fun i hi j hj hji => ?_⟩, rfl, ?_⟩
  · rw [Finset.mem_singleton.1 hi]; show 1 < 3; norm_num
  · obtain rfl := Finset.mem_singleton.1 hi
    have hj3 : j < 3 := hj
    show sqDist (fun _ : Fin 1 => 1) (rowPt lineTrain 1 1) < sqDist (fun _ : Fin 1 => 1) (rowPt lineTrain 1 j)
    unfold sqDist
    rw [Fin.sum_univ_one, Fin.sum_univ_one, r1]
    interval_cases j
    · rw [r0]; norm_num
    · simp at hji
    · rw [r2]; norm_num
  · rintro ⟨M, hM, h⟩
    have hc : lineHalf.kernel.covFn bs (fun _ => 1) (rowPt lineTrain 1 1) (rowPt lineTrain 1 1) + lineHalf.gp.noise.mat 1 0 0 0 = 2 := by
      rw [lineHalf_cov, sub_self]
      show Real.exp _ + ((1:ℝ) • (1 : Matrix (Fin 1) (Fin 1) ℝ)) 0 0 = 2
      rw [one_smul, Matrix.one_apply_eq]
      norm_num
    have hsq : ∀ (x : ℝ) (i : Nat), sqDist (rowPt (oneTest x) 1 0) (rowPt lineTrain 1 i) = (x - rowPt lineTrain 1 i 0) ^ 2 := by
      intro x i; unfold sqDist; rw [Fin.sum_univ_one]; rfl
    have y1 : lineTargets.get [1] = 1 := by rw [Tensor.get1 _ rfl]; simp [lineTargets]
    have hval : ∀ t : ℝ, |t - 1| < 1 / 4 → M (fun _ => t) = Real.exp (-|t - 1|) / 2 := fun t ht => by
      obtain ⟨μ, v, a1, a2⟩ := h t ht
      obtain ⟨h1, h2⟩ := abs_lt.1 ht
      obtain ⟨μ', v', b1, -, -, b4⟩ := single_prediction bs lineHalf lineHalf_made rfl 3 1 lineTrain _ _ answer hw heuc lineTargets (fun _ => 1)
        ⟨1, one_pos, rfl, fun _ => rfl⟩ rfl (fun _ => trivial) (oneTest t) rfl 1 (by norm_num)
        (by
          intro j hj hj0
          rw [hsq, hsq, r1]
          interval_cases j
          · rw [r0]; nlinarith
          · exact absurd rfl hj0
          · rw [r2]; nlinarith)
        (by rw [hc]; norm_num)
      rw [b1] at a1
      obtain ⟨rfl, rfl⟩ := Prod.mk.inj (Except.ok.inj a1)
      rw [← a2, b4, hc, y1, lineHalf_cov, oneTest_row, r1]
      ring
    -- `|t - 1|` would be differentiable
    have hd : DifferentiableAt ℝ (fun t : ℝ => M fun _ => t) 1 := by
      have hlin : DifferentiableAt ℝ (fun t : ℝ => (fun _ : Fin 1 => t)) 1 := differentiableAt_pi.2 fun _ => differentiableAt_id
      exact DifferentiableAt.comp (1 : ℝ) (g := M) (f := fun t : ℝ => (fun _ : Fin 1 => t)) hM hlin
    have he : (fun t : ℝ => -Real.log (2 * M fun _ => t)) =ᶠ[𝓝 1] fun t => |t - 1| := by
      filter_upwards [Metric.ball_mem_nhds (1 : ℝ) (show (0 : ℝ) < 1 / 4 by norm_num)] with t ht
      rw [Metric.mem_ball, Real.dist_eq] at ht
      rw [hval t ht, mul_div_cancel₀ _ two_ne_zero, Real.log_exp, neg_neg]
    have hl : DifferentiableAt ℝ (fun t : ℝ => -Real.log (2 * M fun _ => t)) 1 := by
      refine (DifferentiableAt.log (hd.const_mul 2) ?_).neg
      rw [hval 1 (by norm_num)]
      norm_num
    have ha : DifferentiableAt ℝ (fun t : ℝ => |t - 1|) 1 := he.differentiableAt_iff.1 hl
    have ha' : DifferentiableAt ℝ (fun t : ℝ => |t|) 0 := by
      have := DifferentiableAt.comp (0 : ℝ) (g := fun t : ℝ => |t - 1|) (f := fun t : ℝ => t + 1) (by rw [zero_add]; exact ha)
        (differentiableAt_id.add_const 1)
      simpa [Function.comp_def] using this
    exact not_differentiableAt_abs_zero ha'

/-- Non-vacuity of `C107_smooth_partial` and `C107_rbf_gradient`: around the training point `1` the mean of the RBF model is smooth, and its derivative is
the weight of that point times the value of the kernel times the direction. -/
example (bs : Flt → ℝ → ℝ) : ∃ (w : NNWrapper) (M : (Fin w.f → ℝ) → ℝ) (α : ℝ) (h0 : 0 < w.f), w.Exact ∧ w.ClearAt (fun _ => 3 / 4) {1} ∧
    (∃ μ v, regressAny bs lineModel w (oneTest (3 / 4)) w.train lineTargets = .ok (μ, v) ∧ μ.get [0] = M fun _ => 3 / 4) ∧
    HasDerivAt (fun t => M (Function.update (fun _ => 3 / 4) ⟨0, h0⟩ t)) (α * Real.exp (-(1 / 4) ^ 2 / 2) * (1 / 4)) (3 / 4) := by
  obtain ⟨answer, hw, heuc⟩ := line_single
  obtain ⟨r0, r1, r2⟩ := line_rows
  have hclear : NNWrapper.ClearAt ⟨3, 1, lineTrain, 1, fun x y => |x 0 - y 0|, false, answer⟩ (fun _ => 3 / 4) {1} := by
    refine ⟨rfl, fun i hi => ?_, fun i hi j hj hji => ?_⟩
    · rw [Finset.mem_singleton.1 hi]; show 1 < 3; norm_num
    · obtain rfl := Finset.mem_singleton.1 hi
      have hj3 : j < 3 := hj
      show sqDist (fun _ : Fin 1 => 3 / 4) (rowPt lineTrain 1 1) < sqDist (fun _ : Fin 1 => 3 / 4) (rowPt lineTrain 1 j)
      unfold sqDist
      rw [Fin.sum_univ_one, Fin.sum_univ_one, r1]
      interval_cases j
      · rw [r0]; norm_num
      · simp at hji
      · rw [r2]; norm_num
  obtain ⟨M, α, h1, h2⟩ := C107_rbf_gradient bs lineModel rfl rfl rfl rfl 1 rfl _ hw heuc (.inl one_pos) lineTargets (fun _ => 1)
    ⟨1, one_pos, rfl, fun _ => rfl⟩ rfl one_pos (by show 1 ≤ 3; norm_num) {1}
  refine ⟨_, M, α 1, one_pos, hw, hclear, ?_, ?_⟩
  · obtain ⟨μ, v, a1, -, a2⟩ := h1 (oneTest (3 / 4)) 1 rfl one_pos
    exact ⟨μ, v, a1, a2 0 one_pos hclear⟩
  · have h3 := (h2 (fun _ => 3 / 4) hclear).2 (0 : Fin 1)
    refine h3.congr_deriv ?_
    rw [Finset.sum_singleton]
    have e := line_cov bs (fun _ => 3 / 4) (rowPt lineTrain 1 1)
    rw [r1] at e
    show α 1 * lineModel.kernel.covFn bs (fun _ => 1) (fun _ => 3 / 4) (rowPt lineTrain 1 1) * ((rowPt lineTrain 1 1 0 - 3 / 4) / 1 ^ 2) = _
    rw [e, r1]
    norm_num

end MuyGPyS
