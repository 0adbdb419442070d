import Verif.Props.NoisyPoints
import Verif.Props.SequentialWitness

/-! # C120: its theorems' hypotheses are met -/

namespace MuyGPyS
open Py

/-- Whatever positive noise variances are declared for the training points, there is a model which has them. -/
theorem declares_exists (w : NNWrapper) (hw : w.Exact) (Q : Tensor ℝ) (m : Nat) (len : Fin w.f → ℝ) (k : KernelObj) (hk : k.make = k) (hs : k.fn.Suits k.deform.metric)
    (hlen : k.deform.HasLengths w.f len) (σ : ℝ) (noise : Tensor ℝ) (ht : noise.shape = [w.N]) (hp : ∀ i < w.N, 0 < noise.get [i])
    (hQ : Q.shape = [m, w.f]) (hm : 0 < m) (hk0 : 0 < w.nnCount) (hkN : w.nnCount ≤ w.N) :
    ∃ T, Regressor.Declares ⟨k, MuyGPS.make (.heteroscedastic T) KernelObj.kout σ⟩ w Q len σ noise := by
  obtain ⟨nn, D, a1, a2, a3, a4, -⟩ := C41_plain w hw Q m hQ hm hk0 hkN
  have hv : AllValid w.N nn := valid_of_rows a2 fun i hi j hj => by
    obtain ⟨l, e1, e2⟩ := a4 i hi
    obtain ⟨x, x1, x2⟩ := rowList_get e1 hj
    exact ⟨x, x2, e2.mem x (List.mem_of_getElem? x1)⟩
  obtain ⟨T, t1, -, -⟩ := take_vec (data := noise) (N := w.N) ht hv
  exact ⟨T, hk, rfl, hs, hlen, rfl, ht, hp, nn, D, T, a1, t1, rfl⟩

/-- The noise variances 1, 2 and 100 of the three training points. -/
def outlierNoise : Tensor ℝ := ⟨[3], fun k => if k = 2 then 100 else (k : ℝ) + 1⟩

/-- Non-vacuity of `C120_influence`: the third response changes from 0 to 5; its noise variance is 100, so no prediction moves by more than `5 / 20`. -/
example (bs : Flt → ℝ → ℝ) : ∃ (w : NNWrapper) (T μ v μ' v' : Tensor ℝ), w.Exact ∧ w.train = lineTrain ∧
    regressAny bs ⟨lineModel.kernel, MuyGPS.make (.heteroscedastic T) KernelObj.kout 1⟩ w lineTest w.train lineTargets = .ok (μ, v) ∧
    regressAny bs ⟨lineModel.kernel, MuyGPS.make (.heteroscedastic T) KernelObj.kout 1⟩ w lineTest w.train
      ⟨[3], fun k => if k = 1 then 1 else if k = 2 then 5 else 0⟩ = .ok (μ', v') ∧ ∀ p < 2, |μ'.get [p] - μ.get [p]| ≤ 1 / 4 := by
  obtain ⟨answer, hw⟩ := line_exact
  have hpos : ∀ i < 3, 0 < outlierNoise.get [i] := fun i hi => by
    rw [Tensor.get1 outlierNoise rfl]
    interval_cases i <;> norm_num [outlierNoise]
  obtain ⟨T, hR⟩ := declares_exists ⟨3, 1, lineTrain, 2, fun x y => |x 0 - y 0|, false, answer⟩ hw lineTest 2 (fun _ => 1) lineModel.kernel rfl rfl
    ⟨1, one_pos, rfl, fun _ => rfl⟩ 1 outlierNoise rfl hpos rfl two_pos two_pos (by norm_num)
  obtain ⟨μ, v, μ', v', h1, h2, -, -, -, -, h3⟩ := C120_influence bs _ _ hw lineTest lineTargets
    ⟨[3], fun k => if k = 1 then 1 else if k = 2 then 5 else 0⟩ 2 (fun _ => 1) 1 outlierNoise hR one_pos rfl rfl rfl two_pos two_pos (by norm_num)
  refine ⟨_, T, μ, v, μ', v', hw, rfl, h1, h2, fun p hp => (h3 p hp).2.1.trans ?_⟩
  have hsub : (NNWrapper.candidates ⟨3, 1, lineTrain, 2, fun x y => |x 0 - y 0|, false, answer⟩ (rowPt lineTest 1 p)) ⊆ Finset.range 3 := fun i hi => by
    classical
    unfold NNWrapper.candidates at hi
    exact (Finset.mem_filter.mp hi).1
  have hle := Finset.sum_le_sum_of_subset_of_nonneg (f := fun i =>
    ((⟨[3], fun k => if k = 1 then 1 else if k = 2 then 5 else 0⟩ : Tensor ℝ).get [i] - lineTargets.get [i]) ^ 2 / outlierNoise.get [i]) hsub
    fun i hi _ => div_nonneg (sq_nonneg _) (hpos i (Finset.mem_range.mp hi)).le
  have hval : (∑ i ∈ Finset.range 3, ((⟨[3], fun k => if k = 1 then 1 else if k = 2 then 5 else 0⟩ : Tensor ℝ).get [i] - lineTargets.get [i]) ^ 2 /
      outlierNoise.get [i]) = (1 / 2) ^ 2 := by
    simp only [Finset.sum_range_succ, Finset.sum_range_zero, Tensor.get1 outlierNoise rfl, Tensor.get1 lineTargets rfl,
      Tensor.get1 (⟨[3], fun k => if k = 1 then 1 else if k = 2 then 5 else 0⟩ : Tensor ℝ) rfl]
    norm_num [lineTargets, outlierNoise]
  rw [hval] at hle
  have := Real.sqrt_le_sqrt hle
  rw [Real.sqrt_sq (by norm_num)] at this
  linarith

/-- The noise variances of four training points: 1, 1, 1 and `s + 1`. -/
def growingNoise (s : Nat) : Tensor ℝ := ⟨[4], fun k => if k = 3 then (s : ℝ) + 1 else 1⟩

/-- Non-vacuity of `C120_limit`: a fourth training point, of growing noise, is added to the three. -/
example (bs : Flt → ℝ → ℝ) : ∃ (w w' : NNWrapper) (R : Regressor) (R' : Nat → Regressor) (μ v : Tensor ℝ) (μ' v' : Nat → Tensor ℝ), w.Exact ∧ w'.Exact ∧
    w.train = lineTrain ∧ w'.train = lineTrain4 ∧ regressAny bs R w lineTest w.train lineTargets = .ok (μ, v) ∧
    (∀ s, regressAny bs (R' s) w' lineTest w'.train lineTargets4 = .ok (μ' s, v' s)) ∧
    ∀ p < 2, Filter.Tendsto (fun s => (μ' s).get [p]) Filter.atTop (nhds (μ.get [p])) ∧
      Filter.Tendsto (fun s => (v' s).get [p]) Filter.atTop (nhds (v.get [p])) := by
  obtain ⟨answer, hw⟩ := exact_index_exists 3 1 3 lineTrain rfl (fun x y => |x 0 - y 0|) false
  obtain ⟨answer', hw'⟩ := exact_index_exists 4 1 4 lineTrain4 rfl (fun x y => |x 0 - y 0|) false
  obtain ⟨T, hR⟩ := declares_exists _ hw lineTest 2 (fun _ => 1) lineModel.kernel rfl rfl
    ⟨1, one_pos, rfl, fun _ => rfl⟩ 1 ⟨[3], fun _ => 1⟩ rfl (fun i hi => by rw [Tensor.get1 _ rfl]; exact one_pos) rfl two_pos (by norm_num) le_rfl
  have hpos : ∀ s, ∀ i < 4, 0 < (growingNoise s).get [i] := fun s i hi => by
    rw [Tensor.get1 (growingNoise s) rfl]
    simp only [growingNoise]
    split <;> positivity
  have h' := fun s => declares_exists _ hw' lineTest 2 (fun _ => 1) lineModel.kernel rfl rfl
    ⟨1, one_pos, rfl, fun _ => rfl⟩ 1 (growingNoise s) rfl (hpos s) rfl two_pos (by norm_num) le_rfl
  choose T' hR' using h'
  obtain ⟨a1, -, a3, -⟩ := lineTrain4_appended
  obtain ⟨μ, v, μ', v', r1, r2, r3⟩ := C120_limit bs _ _ 4 lineTrain4 answer' hw hw' rfl (by norm_num) (by norm_num) lineTest lineTargets lineTargets4 2
    (fun _ => 1) 1 ⟨[3], fun _ => 1⟩ hR one_pos Filter.atTop (fun s => ⟨lineModel.kernel, MuyGPS.make (.heteroscedastic (T' s)) KernelObj.kout 1⟩)
    growingNoise hR' (fun _ => rfl) rfl two_pos rfl rfl (fun i hi => ⟨a1 i hi, fun s => by
      have : i ≠ 3 := by
        have : i < 3 := hi
        omega
      rw [Tensor.get1 (growingNoise s) rfl, Tensor.get1 _ rfl]
      simp [growingNoise, this], a3 i hi⟩) (fun i h1 h2 => by
      have h1 : 3 ≤ i := h1
      have : i = 3 := by omega
      subst this
      have e : (fun s => (growingNoise s).get [3]) = fun s : Nat => (s : ℝ) + 1 := by
        funext s
        rw [Tensor.get1 (growingNoise s) rfl]
        simp [growingNoise]
      rw [e]
      exact Filter.tendsto_atTop_add_const_right _ _ tendsto_natCast_atTop_atTop)
  exact ⟨_, _, _, _, μ, v, μ', v', hw, hw', rfl, rfl, r1, r2, r3⟩

end MuyGPyS
