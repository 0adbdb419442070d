import Verif.Props.PipelineAlways

/-! # C25, C54, C61: a concrete model, training set and optimiser that meet the hypotheses -/

namespace MuyGPyS
open Py Matrix

theorem line_distinct : DistinctRows lineTrain 3 1 := by
  intro i hi j hj hij
  refine ⟨0, one_pos, ?_⟩
  interval_cases i <;> interval_cases j <;> first | exact absurd rfl hij |
    (simp [feature, lineTrain, Tensor.get, Tensor.ravel])

/-- RBF on squared distances with a free length scale in `[1, 3]`, unit noise and an estimated variance scale. -/
noncomputable def lineLearner : Learner :=
  ⟨⟨.scalar ⟨Flt.fin 1, Flt.fin 1, Flt.fin 3, false⟩, none⟩, .homoscedastic ⟨Flt.fin 1, Flt.fin 0, Flt.fin 0, true⟩, .F2, false, .rbf,
    .analytic 1, 1, 1⟩

/-- An optimiser that answers with length scale 2, whatever the data. -/
noncomputable def lineOpt : Learner → TrainData → Res Learner := fun L _ =>
  .ok { L with kernel := ⟨.scalar ⟨Flt.fin 2, Flt.fin 1, Flt.fin 3, false⟩, none⟩ }

theorem line_exact : ∃ answer, NNWrapper.Exact ⟨3, 1, lineTrain, 2, fun x y => |x 0 - y 0|, false, answer⟩ :=
  exact_index_exists 3 1 2 lineTrain rfl (fun x y => |x 0 - y 0|) false

/-- Non-vacuity of `C54_regress_always`: `lineModel` predicts at the two test points, whatever their nearest neighbours. -/
example (bs : Flt → ℝ → ℝ) : ∃ w : NNWrapper, w.Exact ∧ w.N = 3 ∧ w.nnCount = 2 ∧ ∃ μ v,
    regressAny bs lineModel w lineTest w.train lineTargets = .ok (μ, v) ∧ ∀ p < 2, 0 < v.get [p] ∧ v.get [p] < 1 := by
  obtain ⟨answer, hw⟩ := line_exact
  obtain ⟨nn, μ, v, -, h2, -, -, h5⟩ := C54_regress_always bs lineModel rfl rfl rfl _ hw lineTest lineTargets 2 (fun _ => 1)
    ⟨1, one_pos, rfl, fun _ => rfl⟩ rfl rfl two_pos two_pos (by norm_num) trivial (.inl one_pos)
  refine ⟨_, hw, rfl, rfl, μ, v, h2, fun p hp => ?_⟩
  have := (h5 p hp).2.2 one_pos
  exact ⟨this.2.2 (PosDef.one.smul one_pos), this.2.1⟩

/-- The same model without noise. -/
noncomputable def lineModel0 : Regressor := ⟨lineModel.kernel, MuyGPS.make .null KernelObj.kout 1⟩

/-- Non-vacuity of `C25_regress_any`: predicting at the training point `0` returns its response. -/
example (bs : Flt → ℝ → ℝ) : ∃ w : NNWrapper, w.Exact ∧ w.N = 3 ∧ w.nnCount = 2 ∧ ∃ μ v,
    regressAny bs lineModel0 w lineTest w.train lineTargets = .ok (μ, v) ∧ ∀ p < 2, μ.get [p] = 0 ∧ v.get [p] = 0 := by
  obtain ⟨answer, hw⟩ := line_exact
  have hsep : NNWrapper.Separated ⟨3, 1, lineTrain, 2, fun x y => |x 0 - y 0|, false, answer⟩ := by
    refine ⟨fun x => by simp, fun i hi j hj hij => ?_⟩
    have hi' : i < 3 := hi
    have hj' : j < 3 := hj
    show 0 < |rowPt lineTrain 1 i 0 - rowPt lineTrain 1 j 0|
    interval_cases i <;> interval_cases j <;> first | exact absurd rfl hij |
      (simp [rowPt, lineTrain, Tensor.get, Tensor.ravel]; try norm_num)
  obtain ⟨μ, v, h1, -, -, h2⟩ := C25_regress_any bs lineModel0 rfl rfl rfl (.inl rfl) one_pos _ hw hsep line_distinct lineTest
    lineTargets 2 (fun _ => 1) ⟨1, one_pos, rfl, fun _ => rfl⟩ rfl rfl two_pos two_pos (by norm_num)
  refine ⟨_, hw, rfl, rfl, μ, v, h1, fun p hp => ?_⟩
  have := (h2 p hp).1 0 (by norm_num) (by funext c; simp [rowPt, lineTest, lineTrain, Tensor.get, Tensor.ravel])
  simpa [lineTargets, Tensor.get, Tensor.ravel] using this

/-- Non-vacuity of `C61_training_succeeds` and `C61_do_regress_always`: training on a batch of all three points and predicting
at two test points succeeds, with the length scale the optimiser answered, a positive variance scale and positive variances
below it. -/
theorem line_trained (bs : Flt → ℝ → ℝ) : ∃ w : NNWrapper, w.Exact ∧ w.N = 3 ∧ w.nnCount = 2 ∧ ∃ s μ v, 0 < s ∧
    doRegress bs lineOpt [] [] 3 w lineLearner lineTest ⟨[3], fun _ => 1⟩ =
      .ok ({ lineLearner with kernel := ⟨.scalar ⟨Flt.fin 2, Flt.fin 1, Flt.fin 3, false⟩, none⟩, scale := s, boundScale := s }, μ, v) ∧
    ∀ p < 2, 0 ≤ v.get [p] ∧ v.get [p] < s := by
  obtain ⟨answer, hw⟩ := line_exact
  set w : NNWrapper := ⟨3, 1, lineTrain, 2, fun x y => |x 0 - y 0|, false, answer⟩ with hwd
  have hN : w.N = 3 := rfl
  have hk : w.nnCount = 2 := rfl
  obtain ⟨idx, nn, h1, h2, -⟩ := C61_training_succeeds bs lineOpt lineLearner (by simp [lineLearner])
    ⟨("length_scale", ⟨Flt.fin 1, Flt.fin 1, Flt.fin 3, false⟩), by simp [lineLearner, Learner.gp, GP.params, Kernel.named, LenScale.named], rfl⟩
    w hw (fun _ => 1) ⟨1, one_pos, rfl, fun _ => rfl⟩ 3 (by norm_num) [] (fun h => absurd h (lt_irrefl 3)) []
    (by rw [hN]; norm_num) (by rw [hk]; norm_num) (by rw [hk, hN]) ⟨[3], fun _ => 1⟩ rfl
    (fun d => ⟨_, rfl, rfl, rfl, rfl, rfl, ⟨fun _ => 2, 2, two_pos, rfl, fun _ => rfl⟩, rfl,
      fun b => ⟨trivial, .inl one_pos⟩⟩)
  obtain ⟨d, L1, s, e1, e2, e3⟩ := h2 ⟨0, by
    obtain ⟨idx', nn', b1, b2, -⟩ := C42_batch w hw 3 (by norm_num) (by rw [hN]; norm_num) [] (fun h => absurd h (lt_irrefl 3))
      (by rw [hk, hN])
    obtain ⟨rfl, rfl⟩ := Prod.mk.inj (Except.ok.inj (h1.symm.trans b1))
    rw [b2, hN]; norm_num, 0, two_pos, one_ne_zero⟩
  obtain rfl := Except.ok.inj e1
  obtain ⟨nn', μ, v, -, r1, -, -, r2⟩ := C61_do_regress_always bs lineOpt [] [] 3 w hw lineLearner _ lineTest ⟨[3], fun _ => 1⟩ e3 rfl rfl
    2 (fun _ => 2) ⟨2, two_pos, rfl, fun _ => rfl⟩ rfl rfl two_pos two_pos (by norm_num [hk, hN]) trivial (.inl one_pos)
  exact ⟨w, hw, rfl, rfl, s, μ, v, e2, r1, fun p hp => (r2 p hp).2.2 e2⟩

end MuyGPyS
