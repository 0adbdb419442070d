import Verif.Props.FreeSmoothness
import Verif.Props.ContinuityFails

/-! # C118: what the deficit is not -/

namespace MuyGPyS
open Py Matrix

/-- One training point, the origin of the line, with response 1. -/
def originTrain : Tensor ℝ := ⟨[1, 1], fun _ => 0⟩
def originTargets : Tensor ℝ := ⟨[1], fun _ => 1⟩

/-- What a model predicts from one training point. -/
theorem origin_prediction (bs : Flt → ℝ → ℝ) (R : Regressor) (hk : R.kernel.make = R.kernel) (hko : R.gp.kout = KernelObj.kout) (τ : ℝ)
    (hν : R.gp.noise = .homoscedastic τ) (hlen : R.kernel.deform.HasLengths 1 fun _ => 1) (answer : (Fin 1 → ℝ) → Nat → List Nat)
    (hw : NNWrapper.Exact ⟨1, 1, originTrain, 1, fun x y => |x 0 - y 0|, false, answer⟩) (x : ℝ)
    (h0 : R.kernel.covFn bs (fun _ : Fin 1 => 1) (fun _ => 0) (fun _ => 0) + τ ≠ 0) :
    ∃ μ v, regressAny bs R ⟨1, 1, originTrain, 1, fun x y => |x 0 - y 0|, false, answer⟩ (oneTest x) originTrain originTargets = .ok (μ, v) ∧
      μ.get [0] = R.kernel.covFn bs (fun _ : Fin 1 => 1) (fun _ => x) (fun _ => 0) /
        (R.kernel.covFn bs (fun _ : Fin 1 => 1) (fun _ => 0) (fun _ => 0) + τ) := by
  set w : NNWrapper := ⟨1, 1, originTrain, 1, fun x y => |x 0 - y 0|, false, answer⟩ with hwd
  obtain ⟨nn, h1, h2, h3⟩ := regress_cases_uniform bs R hk hko w hw (oneTest x) 1 (fun _ => 1) hlen rfl one_pos one_pos le_rfl
    (by rw [hν]; trivial)
  have hpt : ∀ y, pt w.train w.f y = fun _ => 0 := fun y => rfl
  have hrow : rowPt (oneTest x) w.f 0 = fun _ => x := by
    funext c
    exact oneTest_row x c
  have hA : nbrCov bs R.kernel (fun _ : Fin 1 => 1) w.train w.N w.nnCount nn 0 + R.gp.noise.mat w.nnCount 0 =
      Matrix.of fun _ _ : Fin 1 => R.kernel.covFn bs (fun _ : Fin 1 => 1) (fun _ => 0) (fun _ => 0) + τ := by
    rw [hν]
    show nbrCov bs R.kernel (fun _ : Fin 1 => 1) w.train w.N 1 nn 0 + τ • (1 : Matrix (Fin 1) (Fin 1) ℝ) = _
    ext i j
    have hij : i = j := Subsingleton.elim (α := Fin 1) i j
    subst hij
    rw [Matrix.add_apply, Matrix.smul_apply, Matrix.one_apply_eq, smul_eq_mul, mul_one]
    rfl
  rcases h3 originTargets rfl with ⟨⟨p, hp, hdet⟩, -⟩ | ⟨-, μ, v, r1, r2, r3, r4⟩
  · obtain rfl : p = 0 := by omega
    rw [hA] at hdet
    refine absurd hdet ?_
    show (Matrix.of fun _ _ : Fin 1 => _).det ≠ 0
    rw [Matrix.det_unique]
    exact h0
  · refine ⟨μ, v, r1, ?_⟩
    have := (r4 0 one_pos).1
    rw [hA] at this
    rw [this]
    refine (kriging_one _ _ _).1.trans ?_
    show R.kernel.covFn bs (fun _ : Fin 1 => 1) (rowPt (oneTest x) w.f 0) (fun _ => 0) * (1 / _) = _
    rw [hrow, mul_one_div]
    rfl

/-- **C118, where the code fails**: with the same noise variance, a model with free smoothness predicts something else than the model with the same
smoothness, fixed — at a new test point it does not shrink the response as much. -/
theorem C118_same_noise_fails (bs : Flt → ℝ → ℝ) (R R' : Regressor) (ν τ σ : ℝ) (hR : R.GeneralMatern ν (fun _ : Fin 1 => 1) τ σ)
    (hR' : R'.ClosedMatern ν (fun _ : Fin 1 => 1) τ σ) (hτ : deficit ν < τ) :
    ∃ (answer : (Fin 1 → ℝ) → Nat → List Nat) (μ v μ' v' : Tensor ℝ), let w : NNWrapper := ⟨1, 1, originTrain, 1, fun x y => |x 0 - y 0|, false, answer⟩
      w.Exact ∧ w.New (oneTest 1) 1 ∧ regressAny maternGen R w (oneTest 1) w.train originTargets = .ok (μ, v) ∧
      regressAny bs R' w (oneTest 1) w.train originTargets = .ok (μ', v') ∧ μ'.get [0] < μ.get [0] := by
  have hν := ClosedMatern.nu_pos hR'
  have hδ := deficit_pos hν
  obtain ⟨q, hsm, hq⟩ := hR.smooth
  have hcov := gen_covFn R.kernel hR.fn hR.metric q ν hsm hq (fun _ : Fin 1 => 1) (fun _ => one_pos)
  have hδ1 : deficit ν < 1 := by
    have := ((C62_correlation ν hν).1 _ machEps_pos).1
    unfold deficit; linarith
  have hne : (fun _ : Fin 1 => (1:ℝ)) ≠ fun _ => 0 := fun h => one_ne_zero (congrFun h 0)
  obtain ⟨answer, hw⟩ := exact_index_exists 1 1 1 originTrain rfl (fun x y => |x 0 - y 0|) false
  obtain ⟨μ, v, r1, r2⟩ := origin_prediction maternGen R hR.made hR.kout τ hR.noise hR.lengths answer hw 1
    (by rw [(hcov (fun _ => 0) (fun _ => 0)).2]; linarith)
  obtain ⟨μ', v', s1, s2⟩ := origin_prediction bs R' hR'.made hR'.kout τ hR'.noise hR'.lengths answer hw 1
    (by rw [closed_covFn bs hR', maternProcess_self]; linarith)
  refine ⟨answer, μ, v, μ', v', hw, fun p hp i hi h => ?_, r1, s1, ?_⟩
  · obtain rfl : p = 0 := by omega
    have := congrFun h (0 : Fin 1)
    rw [show rowPt (oneTest 1) 1 0 0 = 1 from oneTest_row 1 0] at this
    exact one_ne_zero this
  · rw [r2, s2, (hcov _ _).1 hne, (hcov (fun _ => 0) (fun _ => 0)).2, closed_covFn bs hR', closed_covFn bs hR', maternProcess_self]
    have hc := (maternProcess_range hν (fun _ : Fin 1 => 1) (fun _ => one_pos) (fun _ => 1) fun _ => 0).1
    exact div_lt_div_of_pos_left hc (by linarith) (by linarith)

/-- **C118, where the code fails**: at a training point the predictions of a model with free smoothness are not those of the true process, not even
with the noise variance `τ - deficit` — it shrinks the response more than the model with the same smoothness, fixed, and that noise variance. -/
theorem C118_training_point_fails (bs : Flt → ℝ → ℝ) (R R' : Regressor) (ν τ σ : ℝ) (hR : R.GeneralMatern ν (fun _ : Fin 1 => 1) τ σ)
    (hR' : R'.ClosedMatern ν (fun _ : Fin 1 => 1) (τ - deficit ν) σ) (hτ : deficit ν < τ) :
    ∃ (answer : (Fin 1 → ℝ) → Nat → List Nat) (μ v μ' v' : Tensor ℝ), let w : NNWrapper := ⟨1, 1, originTrain, 1, fun x y => |x 0 - y 0|, false, answer⟩
      w.Exact ∧ regressAny maternGen R w (oneTest 0) w.train originTargets = .ok (μ, v) ∧
      regressAny bs R' w (oneTest 0) w.train originTargets = .ok (μ', v') ∧ μ.get [0] < μ'.get [0] := by
  have hν := ClosedMatern.nu_pos hR'
  have hδ := deficit_pos hν
  obtain ⟨q, hsm, hq⟩ := hR.smooth
  have hcov := gen_covFn R.kernel hR.fn hR.metric q ν hsm hq (fun _ : Fin 1 => 1) (fun _ => one_pos)
  have hδ1 : deficit ν < 1 := by
    have := ((C62_correlation ν hν).1 _ machEps_pos).1
    unfold deficit; linarith
  obtain ⟨answer, hw⟩ := exact_index_exists 1 1 1 originTrain rfl (fun x y => |x 0 - y 0|) false
  obtain ⟨μ, v, r1, r2⟩ := origin_prediction maternGen R hR.made hR.kout τ hR.noise hR.lengths answer hw 0
    (by rw [(hcov (fun _ => 0) (fun _ => 0)).2]; linarith)
  obtain ⟨μ', v', s1, s2⟩ := origin_prediction bs R' hR'.made hR'.kout _ hR'.noise hR'.lengths answer hw 0
    (by rw [closed_covFn bs hR', maternProcess_self]; linarith)
  refine ⟨answer, μ, v, μ', v', hw, r1, s1, ?_⟩
  rw [r2, s2, (hcov (fun _ => 0) (fun _ => 0)).2, closed_covFn bs hR', maternProcess_self,
    show 1 - deficit ν + τ = 1 + (τ - deficit ν) by ring]
  exact div_lt_div_of_pos_right (by linarith) (by linarith)

end MuyGPyS
