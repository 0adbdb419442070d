import Verif.Props.Sequential
import Verif.Props.Locality
import Verif.Props.ContinuityFails

/-! # C99: its theorem's hypotheses are met -/

namespace MuyGPyS
open Py

theorem lineTrain4_appended : Appended lineTrain lineTargets lineTrain4 lineTargets4 3 1 (rowPt (oneTest 5) 1 0) 7 := by
  have hX : ∀ i < 4, rowPt lineTrain4 1 i = fun _ => lineTrain4.flat i := fun i _ => by
    funext c
    have : (c : Nat) = 0 := by omega
    simp only [rowPt, this]
    rw [Tensor.get2 lineTrain4 (show lineTrain4.shape = [4, 1] from rfl)]
    simp
  have hX0 : ∀ i < 3, rowPt lineTrain 1 i = fun _ => lineTrain.flat i := fun i _ => by
    funext c
    have : (c : Nat) = 0 := by omega
    simp only [rowPt, this]
    rw [Tensor.get2 lineTrain (show lineTrain.shape = [3, 1] from rfl)]
    simp
  refine ⟨fun i hi => ?_, ?_, fun i hi => ?_, ?_⟩
  · rw [hX i (by omega), hX0 i hi]
    funext c
    show (if i = 3 then _ else _) = _
    rw [if_neg (by omega)]
  · rw [hX 3 (by omega)]
    rfl
  · rw [Tensor.get1 lineTargets4 rfl, Tensor.get1 lineTargets rfl]
    show (if i = 3 then _ else _) = _
    rw [if_neg (by omega)]
  · rw [Tensor.get1 lineTargets4 rfl]
    rfl

/-- `C99_update`: to the training points `0`, `1`, `3` a fourth one is added at `5` with the response `7`; predictions at `0`, noise 1. -/
example (bs : Flt → ℝ → ℝ) : ∃ (w w' : NNWrapper) (g : ℝ) (μ v μs vs μ' v' : Tensor ℝ), w.Exact ∧ w'.Exact ∧ w.train = lineTrain ∧ w'.train = lineTrain4 ∧
    regressAny bs lineModel w lineTest w.train lineTargets = .ok (μ, v) ∧ regressAny bs lineModel w (oneTest 5) w.train lineTargets = .ok (μs, vs) ∧
    regressAny bs lineModel w' lineTest w'.train lineTargets4 = .ok (μ', v') ∧
    μ'.get [0] = μ.get [0] + g * (7 - μs.get [0]) ∧ v'.get [0] = v.get [0] - g ^ 2 * (vs.get [0] + 1) := by
  obtain ⟨answer, hw⟩ := exact_index_exists 3 1 3 lineTrain rfl (fun x y => |x 0 - y 0|) false
  obtain ⟨answer', hw'⟩ := exact_index_exists 4 1 4 lineTrain4 rfl (fun x y => |x 0 - y 0|) false
  obtain ⟨g, hg⟩ := C99_update bs lineModel rfl rfl rfl one_pos _ _ hw hw' rfl rfl (by norm_num) rfl rfl (fun _ => 1)
    ⟨1, one_pos, rfl, fun _ => rfl⟩ 1 rfl (.inl one_pos) 2 two_pos lineTest (oneTest 5) rfl rfl
  obtain ⟨μ, v, μs, vs, μ', v', h1, h2, h3, -, h4⟩ := hg lineTargets lineTargets4 7 rfl rfl lineTrain4_appended
  have e : lineModel.gp.boundScale * 1 = 1 := by show (1 : ℝ) * 1 = 1; norm_num
  rw [e] at h4
  exact ⟨_, _, g 0, μ, v, μs, vs, μ', v', hw, hw', rfl, rfl, h1, h2, h3, (h4 0 two_pos).1, (h4 0 two_pos).2.1⟩

end MuyGPyS
