import Verif.Props.Extremes
import Verif.Props.FastPipelineWitness

/-! # C104: concrete models and training points that meet the hypotheses -/

namespace MuyGPyS
open Py Matrix Topology
open scoped ContDiff

/-- RBF on squared distances with a given length scale, noise and variance scale. -/
noncomputable def lineHyper (len τ σ : ℝ) : Regressor :=
  ⟨⟨.isotropy .F2 ⟨Flt.fin len, Flt.fin 0, Flt.fin 0, true⟩, none, .rbf⟩, { MuyGPS.make (.homoscedastic τ) KernelObj.kout 1 with boundScale := σ }⟩

theorem lineHyper_has {len τ σ : ℝ} (h : 0 < len) : (lineHyper len τ σ).Has lineModel.kernel (fun _ : Fin 1 => len) τ σ :=
  ⟨rfl, rfl, rfl, rfl, ⟨len, h, rfl, fun _ => rfl⟩, rfl, rfl⟩

/-- Matérn with a given smoothness, length scale, noise and variance scale. -/
noncomputable def lineSmooth (ν len τ σ : ℝ) : Regressor :=
  ⟨⟨.isotropy .l2 ⟨Flt.fin len, Flt.fin 0, Flt.fin 0, true⟩, some ⟨Flt.fin ν, Flt.fin 0, Flt.fin 0, false⟩, .gen⟩,
    { MuyGPS.make (.homoscedastic τ) KernelObj.kout 1 with boundScale := σ }⟩

theorem lineSmooth_has {ν len τ σ : ℝ} (h : 0 < len) : (lineSmooth ν len τ σ).Has (lineSmooth ν len τ σ).kernel (fun _ : Fin 1 => len) τ σ :=
  ⟨rfl, rfl, rfl, rfl, ⟨len, h, rfl, fun _ => rfl⟩, rfl, rfl⟩

/-- Non-vacuity of `C104_smooth`: the mean at the first test point is a smooth function of the length scale for every positive length scale, without noise. -/
example (bs : Flt → ℝ → ℝ) : ∃ (w : NNWrapper) (g : ℝ → ℝ), w.Exact ∧ w.train = lineTrain ∧ ContDiffOn ℝ ∞ g (Set.Ioi 0) ∧
    ∀ len > 0, ∃ μ v, regressAny bs (lineHyper len 0 1) w lineTest lineTrain lineTargets = .ok (μ, v) ∧ μ.get [0] = g len := by
  obtain ⟨answer, hw⟩ := line_exact
  obtain ⟨M, V, h1, h2⟩ := C104_smooth bs lineModel.kernel rfl _ hw lineTest lineTargets 2 rfl rfl two_pos two_pos (by show 2 ≤ 3; norm_num)
  refine ⟨_, fun len => M 0 (fun _ => len, 0), hw, rfl, ?_, fun len hl => ?_⟩
  · refine (h1 0 two_pos).1.comp (t := NNWrapper.hyperDomain ⟨3, 1, lineTrain, 2, fun x y => |x 0 - y 0|, false, answer⟩)
      (f := fun len : ℝ => ((fun _ : Fin 1 => len, 0) : (Fin 1 → ℝ) × ℝ)) (by fun_prop) fun len hl => ⟨fun _ => hl, .inr ⟨le_rfl, line_distinct⟩⟩
  · obtain ⟨μ, v, r1, -, -, r2⟩ := h2 (lineHyper len 0 1) (fun _ => len) 0 1 (lineHyper_has hl) ⟨fun _ => hl, .inr ⟨le_rfl, line_distinct⟩⟩
    exact ⟨μ, v, r1, (r2 0 two_pos).1⟩

/-- Non-vacuity of `C104_smooth_matern`: likewise in the smoothness, with unit noise. -/
example : ∃ (w : NNWrapper) (g : ℝ → ℝ), w.Exact ∧ w.train = lineTrain ∧ ContDiffOn ℝ ∞ g (Set.Ioi 0) ∧
    ∀ ν > 0, ∃ μ v, regressAny maternGen (lineSmooth ν 1 1 1) w lineTest lineTrain lineTargets = .ok (μ, v) ∧ μ.get [0] = g ν := by
  obtain ⟨answer, hw⟩ := line_exact
  have hd : ∀ ν > 0, 1 - maternCorrelation ν machEps < 1 := fun ν hν => by
    have := ((C62_correlation ν hν).1 _ machEps_pos).1
    linarith
  obtain ⟨M, V, h1, h2⟩ := C104_smooth_matern _ hw line_distinct lineTest lineTargets 2 rfl rfl two_pos two_pos (by show 2 ≤ 3; norm_num)
  refine ⟨_, fun ν => M 0 (ν, fun _ => 1, 1), hw, rfl, ?_, fun ν hν => ?_⟩
  · refine (h1 0 two_pos).1.comp (t := NNWrapper.maternDomain ⟨3, 1, lineTrain, 2, fun x y => |x 0 - y 0|, false, answer⟩)
      (f := fun ν : ℝ => ((ν, fun _ : Fin 1 => 1, 1) : ℝ × (Fin 1 → ℝ) × ℝ)) (by fun_prop) fun ν hν => ⟨hν, fun _ => one_pos, hd ν hν⟩
  · obtain ⟨μ, v, r1, -, -, r2⟩ := h2 (lineSmooth ν 1 1 1) ν (fun _ => 1) 1 1 _ rfl rfl rfl rfl (lineSmooth_has one_pos) ⟨hν, fun _ => one_pos, hd ν hν⟩
    exact ⟨μ, v, r1, (r2 0 two_pos).1⟩

/-- Non-vacuity of `C104_long_length_scales`: the neighbours of `0` are the points `0` and `1`, with the responses `0` and `1`; under unit noise the mean
approaches a third, and the variance too. -/
example (bs : Flt → ℝ → ℝ) (ε : ℝ) (hε : 0 < ε) : ∃ (w : NNWrapper) (L : ℝ), w.Exact ∧ w.train = lineTrain ∧ ∀ len, 0 < len → L ≤ len →
    ∃ μ v, regressAny bs (lineHyper len 1 1) w lineTest lineTrain lineTargets = .ok (μ, v) ∧ |v.get [0] - 1 / 3| < ε := by
  obtain ⟨answer, hw⟩ := line_exact
  obtain ⟨l, -, h⟩ := C104_long_length_scales bs lineModel.kernel rfl _ hw lineTest lineTargets 2 rfl rfl two_pos two_pos (by show 2 ≤ 3; norm_num)
    1 1 one_pos
  obtain ⟨L, hL⟩ := h ε hε
  refine ⟨_, L, hw, rfl, fun len hl hLl => ?_⟩
  obtain ⟨μ, v, r1, -, -, r2⟩ := hL (lineHyper len 1 1) (fun _ => len) (lineHyper_has hl) fun _ => hLl
  refine ⟨μ, v, r1, ?_⟩
  have := (r2 0 two_pos).2
  norm_num at this ⊢
  exact this

/-- Non-vacuity of `C104_short_length_scales`: the test points are the first training point. -/
example (bs : Flt → ℝ → ℝ) (ε : ℝ) (hε : 0 < ε) : ∃ (w : NNWrapper) (t : ℝ), w.Exact ∧ w.train = lineTrain ∧ 0 < t ∧ ∀ len, 0 < len → len ≤ t →
    ∃ μ v, regressAny bs (lineHyper len 1 1) w lineTest lineTrain lineTargets = .ok (μ, v) ∧ |μ.get [0]| < ε ∧ |v.get [0] - 1 / 2| < ε := by
  obtain ⟨answer, hw⟩ := line_exact
  obtain ⟨t, ht, h⟩ := C104_short_length_scales bs lineModel.kernel rfl _ hw (line_separated answer) line_distinct lineTest lineTargets 2 rfl rfl two_pos
    two_pos (by show 2 ≤ 3; norm_num) 1 1 zero_le_one ε hε
  refine ⟨_, t, hw, rfl, ht, fun len hl hLl => ?_⟩
  obtain ⟨μ, v, r1, -, -, r2⟩ := h (lineHyper len 1 1) (fun _ => len) (lineHyper_has hl) fun _ => hLl
  refine ⟨μ, v, r1, ?_⟩
  have := (r2 0 two_pos).2 0 three_pos (by
    funext c
    show rowPt lineTest 1 0 c = rowPt lineTrain 1 0 c
    fin_cases c
    simp [rowPt, lineTrain, lineTest, Tensor.get, Tensor.ravel])
  have e : lineTargets.get [0] = 0 := by simp [lineTargets, Tensor.get, Tensor.ravel]
  rw [e] at this
  norm_num at this ⊢
  exact this

/-- Non-vacuity of `C104_large_noise`. -/
example (bs : Flt → ℝ → ℝ) : ∃ w : NNWrapper, w.Exact ∧ w.train = lineTrain ∧ ∀ τ > 0,
    ∃ μ v, regressAny bs (lineHyper 1 τ 1) w lineTest lineTrain lineTargets = .ok (μ, v) ∧ |v.get [0] - 1| ≤ 2 / τ := by
  obtain ⟨answer, hw⟩ := line_exact
  obtain ⟨l, -, h⟩ := C104_large_noise bs lineModel.kernel rfl _ hw lineTest lineTargets 2 rfl rfl two_pos two_pos (by show 2 ≤ 3; norm_num)
  refine ⟨_, hw, rfl, fun τ hτ => ?_⟩
  obtain ⟨μ, v, r1, -, -, r2⟩ := h (lineHyper 1 τ 1) (fun _ => 1) τ 1 (lineHyper_has one_pos) hτ
  refine ⟨μ, v, r1, ?_⟩
  have := (r2 0 two_pos).2
  norm_num at this
  exact this

end MuyGPyS
