import Verif.Props.FullGP
import Verif.Props.FastPipelineWitness
import Verif.Props.TruthWitness

/-! # C89: its theorems' hypotheses are met -/

namespace MuyGPyS
open Py Matrix

/-- `C89_regress`: training points `0`, `1`, `3`, all three of them neighbours, noise 1. -/
example (bs : Flt → ℝ → ℝ) : ∃ (w : NNWrapper) (μ v : Tensor ℝ), w.Exact ∧ w.train = lineTrain ∧ w.nnCount = 3 ∧
    regressAny bs lineModel w lineTest w.train lineTargets = .ok (μ, v) ∧ μ.shape = [2] := by
  obtain ⟨answer, hw⟩ := exact_index_exists 3 1 3 lineTrain rfl (fun x y => |x 0 - y 0|) false
  obtain ⟨μ, v, h1, h2, -⟩ := C89_regress bs lineModel rfl rfl rfl _ hw rfl lineTest lineTargets 2 (fun _ => 1)
    ⟨1, one_pos, rfl, fun _ => rfl⟩ rfl rfl two_pos (by norm_num) 1 rfl (.inl one_pos)
  exact ⟨_, μ, v, hw, rfl, rfl, h1, h2⟩

/-- `C89_heteroscedastic`: the same, with noise `1`, `2`, `3`. -/
example (bs : Flt → ℝ → ℝ) : ∃ (w : NNWrapper) (nn : Tensor Int) (D T μ v : Tensor ℝ), w.Exact ∧ w.train = lineTrain ∧ w.nnCount = 3 ∧
    w.getNns lineTest = .ok (nn, D) ∧ makeHeteroscedasticTensor ⟨[3], fun i => i + 1⟩ nn = .ok T ∧
    regressAny bs ⟨lineModel.kernel, MuyGPS.make (.heteroscedastic T) KernelObj.kout 1⟩ w lineTest w.train lineTargets = .ok (μ, v) ∧ μ.shape = [2] := by
  obtain ⟨answer, hw⟩ := exact_index_exists 3 1 3 lineTrain rfl (fun x y => |x 0 - y 0|) false
  set w : NNWrapper := ⟨3, 1, lineTrain, 3, fun x y => |x 0 - y 0|, false, answer⟩ with hwd
  have hN : w.nnCount ≤ w.N := le_refl 3
  obtain ⟨nn, D, a1, a2, a3, a4, -⟩ := C41_plain w hw lineTest 2 rfl two_pos (by show 0 < 3; norm_num) hN
  have hv : AllValid w.N nn := valid_of_rows a2 fun i hi j hj => by
    obtain ⟨l, e1, e2⟩ := a4 i hi
    obtain ⟨x, x1, x2⟩ := rowList_get e1 hj
    exact ⟨x, x2, e2.mem x (List.mem_of_getElem? x1)⟩
  obtain ⟨T, t1, -, -⟩ := take_vec (data := ⟨[3], fun i => (i : ℝ) + 1⟩) (N := w.N) rfl hv
  obtain ⟨μ, v, h1, h2, -⟩ := C89_heteroscedastic bs ⟨lineModel.kernel, MuyGPS.make (.heteroscedastic T) KernelObj.kout 1⟩ rfl rfl rfl w hw rfl lineTest lineTargets 2
    (fun _ => 1) ⟨1, one_pos, rfl, fun _ => rfl⟩ rfl rfl two_pos (by show 0 < 3; norm_num) _ rfl nn D T a1 t1 rfl
    (.inl fun i _ => by rw [Tensor.get1 _ rfl]; positivity)
  exact ⟨w, nn, D, T, μ, v, hw, rfl, rfl, a1, t1, h1, h2⟩

/-- `C89_objective`: training points `0`, `1`, `3`, the two others of each its neighbours, a batch of two of them, noise 1, fixed scale 2. -/
example (bs : Flt → ℝ → ℝ) : ∃ (w : NNWrapper) (idx : List (Fin w.N)) (nn : Tensor Int) (d : TrainData) (s : ℝ), w.Exact ∧ w.train = lineTrain ∧ w.nnCount = 2 ∧
    sampleBatch w 2 w.N [2, 0] = .ok (idx.map Fin.val, nn) ∧ idx.length = 2 ∧ lineFixed.score bs .lool [] d = .ok (some s) := by
  obtain ⟨answer, hw⟩ := line_exact
  obtain ⟨idx, nn, d, h1, h2, -, -, -, -, h3⟩ := C89_objective bs lineFixed rfl rfl _ hw (line_separated answer) rfl (fun _ => 1)
    ⟨1, one_pos, rfl, fun _ => rfl⟩ 2 two_pos [2, 0] (fun _ => ⟨rfl, by decide, fun x hx => by show x < 3; fin_cases hx <;> norm_num⟩) 1 rfl (.inl one_pos) lineTargets rfl []
  exact ⟨_, idx, nn, d, _, hw, rfl, rfl, h1, h2, h3 rfl⟩

end MuyGPyS
