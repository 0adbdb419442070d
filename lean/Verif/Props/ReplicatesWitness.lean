import Verif.Props.Replicates
import Verif.Props.FastPipelineWitness
import Verif.Props.TruthWitness

/-! # C100: its theorems' hypotheses are met: four measurements, two at `0` and two at `1` -/

namespace MuyGPyS
open Py

/-- The places of the four measurements: `0`, `1`, `0`, `1`. -/
noncomputable def repTrain : Tensor ℝ := ⟨[4, 1], fun k => ((k % 2 : Nat) : ℝ)⟩
/-- What was measured: `0`, `1`, `2`, `3`. -/
noncomputable def repTargets : Tensor ℝ := ⟨[4], fun k => (k : ℝ)⟩
/-- The noise variances of the measurements: `1`, `1`, `1`, `3`. -/
noncomputable def repNoise : Tensor ℝ := ⟨[4], fun k => if k = 3 then 3 else 1⟩
/-- The two sites. -/
noncomputable def repSites : Tensor ℝ := ⟨[2, 1], fun k => (k : ℝ)⟩
/-- The means of the measurements at the sites: `1` and `2`. -/
noncomputable def repMeans : Tensor ℝ := ⟨[2], fun k => (k : ℝ) + 1⟩
/-- Their averages weighted by precision: `1` and `3/2`. -/
noncomputable def repAverages : Tensor ℝ := ⟨[2], fun k => if k = 0 then 1 else 3 / 2⟩
/-- The noise variances of these: `1/2` and `3/4`. -/
noncomputable def repVariances : Tensor ℝ := ⟨[2], fun k => if k = 0 then 1 / 2 else 3 / 4⟩
/-- Which site each measurement was made at. -/
def repSite : Fin 4 → Fin 2 := fun i => ⟨i % 2, Nat.mod_lt _ two_pos⟩

theorem rep_points (i : Fin 4) : rowPt repTrain 1 i = rowPt repSites 1 (repSite i) := by
  funext c
  have : (c : Nat) = 0 := by omega
  simp only [rowPt, this]
  rw [Tensor.get2 repTrain (show repTrain.shape = [4, 1] from rfl), Tensor.get2 repSites (show repSites.shape = [2, 1] from rfl)]
  simp [repTrain, repSites, repSite]

theorem rep_filter (s : Fin 2) : (Finset.univ.filter fun i => repSite i = s) = if s = 0 then {0, 2} else {1, 3} := by
  fin_cases s <;> decide

theorem rep_sum (F : Fin 4 → ℝ) (s : Fin 2) : ∑ i with repSite i = s, F i = if s = 0 then F 0 + F 2 else F 1 + F 3 := by
  rw [rep_filter]
  fin_cases s
  · exact Finset.sum_pair (by decide)
  · exact Finset.sum_pair (by decide)

theorem rep_averaged : Averaged 4 2 1 repTrain repTargets repNoise repSites repAverages repVariances repSite := by
  have g1 : ∀ (n : Nat) (F : Nat → ℝ) (i : Nat), Tensor.get (⟨[n], F⟩ : Tensor ℝ) [i] = F i := fun n F i => Tensor.get1 _ rfl i
  refine ⟨fun s => ?_, rep_points, fun s => ?_, fun s => ?_⟩
  · fin_cases s
    · exact ⟨0, rfl⟩
    · exact ⟨1, rfl⟩
  · simp only [rep_sum]
    fin_cases s <;> norm_num [repVariances, repNoise, g1]
  · simp only [rep_sum]
    fin_cases s <;> norm_num [repAverages, repNoise, repTargets, g1]

/-- The four measurements and the two sites, each with an index that returns all of them. -/
theorem rep_exact : ∃ answer answer', NNWrapper.Exact ⟨4, 1, repTrain, 4, fun x y => |x 0 - y 0|, false, answer⟩ ∧
    NNWrapper.Exact ⟨2, 1, repSites, 2, fun x y => |x 0 - y 0|, false, answer'⟩ := by
  obtain ⟨answer, hw⟩ := exact_index_exists 4 1 4 repTrain rfl (fun x y => |x 0 - y 0|) false
  obtain ⟨answer', hw'⟩ := exact_index_exists 2 1 2 repSites rfl (fun x y => |x 0 - y 0|) false
  exact ⟨answer, answer', hw, hw'⟩

/-- `C100_averaged`. -/
example (bs : Flt → ℝ → ℝ) : ∃ (w w' : NNWrapper) (R R' : Regressor) (μ v μ' v' : Tensor ℝ), w.train = repTrain ∧ w'.train = repSites ∧
    R.kernel = lineModel.kernel ∧ R'.kernel = lineModel.kernel ∧ regressAny bs R w lineTest w.train repTargets = .ok (μ, v) ∧
    regressAny bs R' w' lineTest w'.train repAverages = .ok (μ', v') ∧ μ'.get [0] = μ.get [0] ∧ v'.get [0] = v.get [0] := by
  obtain ⟨answer, answer', hw, hw'⟩ := rep_exact
  set w : NNWrapper := ⟨4, 1, repTrain, 4, fun x y => |x 0 - y 0|, false, answer⟩ with hwd
  set w' : NNWrapper := ⟨2, 1, repSites, 2, fun x y => |x 0 - y 0|, false, answer'⟩ with hwd'
  have key : ∀ w : NNWrapper, w.Exact → w.f = 1 → 0 < w.nnCount → w.nnCount ≤ w.N → ∀ τ : Tensor ℝ, τ.shape = [w.N] →
      ∃ nn D T, w.getNns lineTest = .ok (nn, D) ∧ makeHeteroscedasticTensor τ nn = .ok T := fun w hw hf h0 hN τ hτ => by
    obtain ⟨nn, D, a1, a2, a3, a4, -⟩ := C41_plain w hw lineTest 2 (by rw [hf]; rfl) two_pos h0 hN
    have hv : AllValid w.N nn := valid_of_rows a2 fun i hi j hj => by
      obtain ⟨l, e1, e2⟩ := a4 i hi
      obtain ⟨x, x1, x2⟩ := rowList_get e1 hj
      exact ⟨x, x2, e2.mem x (List.mem_of_getElem? x1)⟩
    obtain ⟨T, t1, -, -⟩ := take_vec (data := τ) (N := w.N) hτ hv
    exact ⟨nn, D, T, a1, t1⟩
  obtain ⟨nn, D, S, a1, a2⟩ := key w hw rfl (by show 0 < 4; norm_num) (le_refl 4) repNoise rfl
  obtain ⟨nn', D', S', b1, b2⟩ := key w' hw' rfl (by show 0 < 2; norm_num) (le_refl 2) repVariances rfl
  obtain ⟨μ, v, μ', v', h1, h2, -, -, -, -, h3⟩ := C100_averaged bs ⟨lineModel.kernel, MuyGPS.make (.heteroscedastic S) KernelObj.kout 1⟩
    ⟨lineModel.kernel, MuyGPS.make (.heteroscedastic S') KernelObj.kout 1⟩ rfl rfl rfl rfl rfl rfl w w' hw hw' rfl rfl (by show 0 < 4; norm_num) rfl
    (fun _ => 1) ⟨1, one_pos, rfl, fun _ => rfl⟩ 2 two_pos lineTest rfl repTargets repNoise repAverages repVariances rfl rfl rfl rfl
    (fun i _ => by rw [Tensor.get1 repNoise rfl]; show (0 : ℝ) < if i = 3 then 3 else 1; split_ifs <;> norm_num)
    repSite rep_averaged nn nn' D D' S S' a1 b1 a2 b2 rfl rfl
  exact ⟨w, w', ⟨lineModel.kernel, MuyGPS.make (.heteroscedastic S) KernelObj.kout 1⟩, ⟨lineModel.kernel, MuyGPS.make (.heteroscedastic S') KernelObj.kout 1⟩, μ, v, μ', v', rfl, rfl, rfl, rfl, h1, h2, (h3 0 two_pos).1, (h3 0 two_pos).2⟩

/-- `C100_equal_counts`: noise `1` on each measurement, `1/2` on the means. -/
example (bs : Flt → ℝ → ℝ) : ∃ (w w' : NNWrapper) (R' : Regressor) (μ v μ' v' : Tensor ℝ), w.train = repTrain ∧ w'.train = repSites ∧
    R'.kernel = lineModel.kernel ∧ R'.gp.noise = .homoscedastic (1 / 2) ∧ regressAny bs lineModel w lineTest w.train repTargets = .ok (μ, v) ∧
    regressAny bs R' w' lineTest w'.train repMeans = .ok (μ', v') ∧ μ'.get [0] = μ.get [0] ∧ v'.get [0] = v.get [0] := by
  obtain ⟨answer, answer', hw, hw'⟩ := rep_exact
  obtain ⟨μ, v, μ', v', h1, h2, -, -, -, -, h3⟩ := C100_equal_counts bs lineModel
    ⟨lineModel.kernel, MuyGPS.make (.homoscedastic (1 / 2)) KernelObj.kout 1⟩ rfl rfl rfl rfl rfl rfl _ _ hw hw' rfl rfl (by show 0 < 4; norm_num) rfl
    (fun _ => 1) ⟨1, one_pos, rfl, fun _ => rfl⟩ 2 two_pos lineTest rfl repTargets repMeans rfl rfl 1 one_pos 2 two_pos rfl
    (by show (1 / 2 : ℝ) = 1 / ((2 : Nat) : ℝ); norm_num) repSite
    (fun s => by rw [rep_filter]; fin_cases s <;> rfl) rep_points (fun s => by
      have g1 : ∀ (n : Nat) (F : Nat → ℝ) (i : Nat), Tensor.get (⟨[n], F⟩ : Tensor ℝ) [i] = F i := fun n F i => Tensor.get1 _ rfl i
      simp only [rep_sum]
      fin_cases s <;> norm_num [repMeans, repTargets, g1])
  exact ⟨_, _, ⟨lineModel.kernel, MuyGPS.make (.homoscedastic (1 / 2)) KernelObj.kout 1⟩, μ, v, μ', v', rfl, rfl, rfl, rfl, h1, h2, (h3 0 two_pos).1, (h3 0 two_pos).2⟩

end MuyGPyS
