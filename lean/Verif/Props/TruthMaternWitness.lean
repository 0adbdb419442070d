import Verif.Props.TruthMatern
import Verif.Props.TruthWitness
import Verif.Props.SmoothWitness
import Verif.Props.FreeSmoothnessWitness

/-! # C73 with the general Matérn implementation: a concrete case -/

namespace MuyGPyS
open Py MeasureTheory ProbabilityTheory

/-- `lineFreeMatern` with length scale 2 and smoothness 2. -/
noncomputable def lineFreeMatern2 : Learner :=
  { lineFreeMatern with kernel := ⟨.scalar ⟨Flt.fin 2, Flt.fin 1, Flt.fin 3, false⟩, some ⟨Flt.fin 2, Flt.fin 2, Flt.fin 3, false⟩⟩ }

theorem lineFree_feasible (y z : ℝ) (hy : 1 ≤ y ∧ y ≤ 3) (hz : 2 ≤ z ∧ z ≤ 3) :
    lineFreeMatern.Feasible [("length_scale", Flt.fin y), ("smoothness", Flt.fin z), ("noise", Flt.fin 1)] := by
  refine ⟨by simp [Learner.freeNames, lineFreeMatern_params], fun np hnp hfree => ?_⟩
  rw [lineFreeMatern_params] at hnp
  simp only [List.mem_cons, List.not_mem_nil, or_false] at hnp
  rcases hnp with rfl | rfl | rfl
  · refine ⟨Flt.fin y, by simp [Dict.get?], (y : EReal), (1 : ℝ), (3 : ℝ), rfl, rfl, rfl, ?_, ?_⟩
    · exact_mod_cast hy.1
    · exact_mod_cast hy.2
  · refine ⟨Flt.fin z, by simp [Dict.get?], (z : EReal), (2 : ℝ), (3 : ℝ), rfl, rfl, rfl, ?_, ?_⟩
    · exact_mod_cast hz.1
    · exact_mod_cast hz.2
  · refine ⟨Flt.fin 1, by simp [Dict.get?], ((1 : ℝ) : EReal), ((1 / 1000 : ℝ)), (1 : ℝ), rfl, rfl, rfl, ?_, ?_⟩
    · exact_mod_cast (by norm_num : (1 / 1000 : ℝ) ≤ 1)
    · exact_mod_cast le_refl (1 : ℝ)

theorem lineFree_accepts (y z : ℝ) (hy : 1 ≤ y ∧ y ≤ 3) (hz : 2 ≤ z ∧ z ≤ 3) :
    lineFreeMatern.trainee.R.kernel.Accepts [("length_scale", Flt.fin y), ("smoothness", Flt.fin z), ("noise", Flt.fin 1)] :=
  ⟨feasible_unreserved (lineFree_feasible y z hy hz), fun _ h => .inl (by cases h; rfl), trivial⟩

/-- Non-vacuity of `C73_matern_objective_partial`, and so of `C73_matern_partial`: length scale, smoothness and noise variance are free. The true
values are 1, 5/2 and 1; the other ones 2, 2 and 1. -/
example : ∃ (w : NNWrapper) (Ω : Type) (_ : MeasurableSpace Ω) (P : Measure Ω) (_ : IsProbabilityMeasure P)
    (Y : Ω → Tensor ℝ) (idx : List Nat) (nn : Tensor Int) (S S' : Ω → ℝ), w.train = lineTrain ∧
      (∀ ω, ∃ d, lineFreeMatern.trainData (idx, nn) w.train (Y ω) = .ok d ∧
        lineFreeMatern.objective maternGen .mse [] d [("length_scale", Flt.fin 1), ("smoothness", Flt.fin (5 / 2)), ("noise", Flt.fin 1)] =
          .ok (some (S ω)) ∧
        lineFreeMatern.objective maternGen .mse [] d [("length_scale", Flt.fin 2), ("smoothness", Flt.fin 2), ("noise", Flt.fin 1)] =
          .ok (some (S' ω))) ∧ ∫ ω, S' ω ∂P ≤ ∫ ω, S ω ∂P := by
  obtain ⟨answer, hw⟩ := line_exact
  have hsep := line_separated answer
  set w : NNWrapper := ⟨3, 1, lineTrain, 2, fun x y => |x 0 - y 0|, false, answer⟩ with hwd
  have hdef : deficit (5 / 2) < 1 := deficit_lt_one (by norm_num)
  have hpos : ∀ _ : Fin w.f, (0 : ℝ) < 1 := fun _ => one_pos
  obtain ⟨Ω, i1, P, i2, G, Y, h⟩ := observedWith_exists w (maternProcess (5 / 2) fun _ => 1) 5 (by norm_num) (fun _ => 1 - deficit (5 / 2))
    (fun _ _ => by linarith) (fun p : Fin 2 => rowPt lineTest w.f p) (fun z => maternProcess_psd (by norm_num) _ hpos z)
  have hm : lineFreeMatern.Made := by simp [Learner.Made, Learner.make, lineFreeMatern, setMaternFn]
  have hm2 : lineFreeMatern2.Made := by simp [Learner.Made, Learner.make, lineFreeMatern2, lineFreeMatern, setMaternFn]
  obtain ⟨idx, nn, -, S, S', -, -, h3, h4⟩ := C73_matern_objective_partial lineFreeMatern lineFreeMatern lineFreeMatern2 hm
    [("length_scale", Flt.fin 1), ("smoothness", Flt.fin (5 / 2)), ("noise", Flt.fin 1)]
    [("length_scale", Flt.fin 2), ("smoothness", Flt.fin 2), ("noise", Flt.fin 1)]
    (lineFree_feasible 1 (5 / 2) (by norm_num) (by norm_num)) (lineFree_accepts 1 (5 / 2) (by norm_num) (by norm_num)) rfl
    (lineFree_feasible 2 2 (by norm_num) (by norm_num)) (lineFree_accepts 2 2 (by norm_num) (by norm_num)) rfl
    hm hm2 ⟨rfl, rfl⟩ ⟨rfl, rfl⟩ rfl rfl _ (5 / 2) rfl rfl (by norm_num) w hw hsep line_distinct
    (fun _ => 1) (fun _ => 2) ⟨1, one_pos, rfl, fun _ => rfl⟩ ⟨2, two_pos, rfl, fun _ => rfl⟩
    3 (by norm_num) [] (fun h => absurd h (lt_irrefl 3)) (by norm_num [hwd]) (by norm_num [hwd]) 1 1 rfl hdef rfl
    (.inr ⟨rfl, rfl, rfl, line_distinct, _, 2, rfl, rfl, two_pos, deficit_lt_one two_pos⟩) 5 P _ G Y h .mse (.inl rfl) []
  exact ⟨w, Ω, i1, P, i2, Y, idx, nn, S, S', rfl, h3, h4⟩

end MuyGPyS
