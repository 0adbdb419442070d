import Verif.Spec.Relations
import Verif.Props.MultiResponse
import Verif.Props.RoundingFails
import Verif.Props.FullGPWitness

/-! # C116: relations among responses -/

namespace MuyGPyS
open Py Matrix

theorem kriging_combination {n r : Nat} (A : Matrix (Fin n) (Fin n) ℝ) (k : Fin n → ℝ) (a : Nat → ℝ) (y : Nat → Fin n → ℝ)
    (h : ∀ j, ∑ c ∈ Finset.range r, a c * y c j = 0) : ∑ c ∈ Finset.range r, a c * Spec.krigingMean A k (y c) = 0 := by
  have e : ∀ c, a c * Spec.krigingMean A k (y c) = k ⬝ᵥ (A⁻¹ *ᵥ (a c • y c)) := fun c => by
    unfold Spec.krigingMean
    rw [mulVec_smul, dotProduct_smul, smul_eq_mul]
  rw [Finset.sum_congr rfl fun c _ => e c, ← dotProduct_sum, ← mulVec_sum]
  have : ∑ c ∈ Finset.range r, a c • y c = 0 := by
    funext j
    rw [Finset.sum_apply]
    exact h j
  rw [this, mulVec_zero, dotProduct_zero]

/-- **C116** (partial): a homogeneous linear relation that the responses of all training points satisfy is satisfied by all predictions. -/
theorem C116_relations_partial (bs : Flt → ℝ → ℝ) (R : Regressor) (hk : R.kernel.make = R.kernel)
    (hko : R.gp.kout = KernelObj.kout) (w : NNWrapper) (hw : w.Exact) (Q Y : Tensor ℝ)
    (m r : Nat) (len : Fin w.f → ℝ) (hlen : R.kernel.deform.HasLengths w.f len)
    (hQ : Q.shape = [m, w.f]) (hm : 0 < m) (hk0 : 0 < w.nnCount)
    (hkN : w.nnCount ≤ w.N) (hν : R.gp.noise.Fits m w.nnCount) (hY : Y.shape = [w.N, r]) (hr : r ≠ w.nnCount)
    (a : Nat → ℝ) (hrel : Related r a w.N Y) (μ v : Tensor ℝ) (h : regressAny bs R w Q w.train Y = .ok (μ, v)) : Related r a m μ := by
  obtain ⟨nn, D, -, h2, hv, -, hrun⟩ := regress_run bs R w hw Q m hQ hm hk0 hkN
  have hrk : Q.shape.length = w.train.shape.length := by rw [hQ, hw.1]; rfl
  by_cases hs : ∃ p < m, (nbrCov bs R.kernel len w.train w.N w.nnCount nn p + R.gp.noise.mat w.nnCount p).det = 0
  · obtain ⟨p, hp, hd⟩ := hs
    have := regress_singular_multi bs R hk Q w.train Y (arange m) nn m w.N w.f r m w.nnCount hr len hlen (.inl hQ) (.inl hw.1)
        hY hrk rfl h2 (arange_valid m) hv hν p hp hd
    rw [hrun, this] at h
    cases h
  · push Not at hs
    obtain ⟨μ', v', r1, -, r2, r3, r4⟩ := C54_regress_multi_variance_partial bs R hk hko Q w.train Y (arange m) nn m w.N w.f r m w.nnCount hr
      len hlen (.inl hQ) (.inl hw.1) hY hrk rfl h2 (arange_valid m) hv hν hs
    rw [hrun, r1] at h
    obtain ⟨rfl, rfl⟩ := Prod.mk.inj (Except.ok.inj h)
    intro p hp
    rw [Finset.sum_congr rfl fun c hc => by rw [(r4 p hp).1 c (Finset.mem_range.1 hc)]]
    refine kriging_combination _ _ a _ fun j => ?_
    have hx : pointOf w.N (nn.get [p, j]) < w.N := by
      refine Tensor.wrapIndex_lt ?_
      rw [Tensor.get2 nn h2]
      refine hv _ ?_
      rw [h2]
      simp only [List.prod_cons, List.prod_nil, Nat.mul_one]
      have h1 := Nat.mul_le_mul_right w.nnCount (Nat.succ_le_of_lt hp)
      have h3 := j.2
      rw [Nat.succ_mul] at h1
      omega
    have := hrel _ hx
    refine (Finset.sum_congr rfl fun c hc => ?_).trans this
    simp only [nbrTargets, feature, hY]

/-- Responses `1` and `t`. -/
def risingTargets (t : ℝ) : Tensor ℝ := ⟨[2], fun k => if k = 0 then 1 else t⟩

theorem risingTargets_get (t : ℝ) (i : Nat) : (risingTargets t).get [i] = if i = 0 then 1 else t := by
  rw [Tensor.get1 _ rfl]
  simp [risingTargets]

/-- **C116, where the code fails**: bounds on the responses do not bound the predictions. From training points `0` and `1` (`RBF`, noise 1,
both of them neighbours) with positive responses, the prediction at `-1` can be less than any number. -/
theorem C116_bounds_fail (bs : Flt → ℝ → ℝ) : ∃ w : NNWrapper, w.Exact ∧ w.N = 2 ∧ w.nnCount = 2 ∧ ∀ M : ℝ, ∃ Y : Tensor ℝ, Y.shape = [2] ∧ (∀ x < 2, 1 ≤ Y.get [x]) ∧
    ∃ μ v, regressAny bs lineModel w (oneTest (-1)) w.train Y = .ok (μ, v) ∧ μ.get [0] < M := by
  obtain ⟨answer, hw⟩ := exact_index_exists 2 1 2 (twoTrain 0 1) rfl (fun x y => |x 0 - y 0|) false
  refine ⟨_, hw, rfl, rfl, fun M => ?_⟩
  set a := Real.exp (-1 / 2) with ha
  set z := Real.exp (-2) with hz
  have ha0 : 0 < a := Real.exp_pos _
  have ha1 : a < 1 := by rw [ha, ← Real.exp_zero]; exact Real.exp_lt_exp.2 (by norm_num)
  have hden : 0 < 4 - a ^ 2 := by nlinarith
  have hzu : 2 * z < a * a := by
    have e : a * a = Real.exp (-1) := by rw [ha, ← Real.exp_add]; norm_num
    have e2 : z = Real.exp (-1) * Real.exp (-1) := by rw [hz, ← Real.exp_add]; norm_num
    have h1 : Real.exp (-1) < 1 / 2 := by
      rw [Real.exp_neg, ← one_div]
      exact one_div_lt_one_div_of_lt two_pos (by have := Real.exp_one_gt_d9; linarith)
    have h0 := Real.exp_pos (-1)
    rw [e, e2]
    nlinarith
  -- a response large enough
  set c := (a * a - 2 * z) / (4 - a ^ 2) with hc
  have hc0 : 0 < c := div_pos (by linarith) hden
  set b := (2 * a - a * z) / (4 - a ^ 2) with hb
  obtain ⟨t, ht1, htM⟩ : ∃ t : ℝ, 1 ≤ t ∧ b - c * t < M := by
    refine ⟨max 1 ((b - M) / c + 1), le_max_left _ _, ?_⟩
    have h1 : (b - M) / c + 1 ≤ max 1 ((b - M) / c + 1) := le_max_right _ _
    have h2 : c * ((b - M) / c + 1) ≤ c * max 1 ((b - M) / c + 1) := mul_le_mul_of_nonneg_left h1 hc0.le
    have h3 : c * ((b - M) / c + 1) = b - M + c := by field_simp
    linarith
  refine ⟨risingTargets t, rfl, fun x hx => ?_, ?_⟩
  · rw [risingTargets_get]; split <;> linarith
  obtain ⟨μ, v, h1, -, -, h4⟩ := C89_regress bs lineModel rfl rfl rfl _ hw rfl (oneTest (-1)) (risingTargets t) 1 (fun _ => 1)
    ⟨1, one_pos, rfl, fun _ => rfl⟩ rfl rfl one_pos (by norm_num) 1 rfl (.inl one_pos)
  refine ⟨μ, v, h1, ?_⟩
  rw [(h4 0 one_pos).1]
  have hr : ∀ i : Nat, rowPt (twoTrain 0 1) 1 i 0 = if i = 0 then 0 else 1 := fun i => twoTrain_get 0 1 i
  have e1 : fullCov bs lineModel.kernel (fun _ : Fin 1 => 1) (twoTrain 0 1) 2 + (1:ℝ) • (1 : Matrix (Fin 2) (Fin 2) ℝ) = !![2, a; a, 2] := by
    ext i j
    rw [Matrix.add_apply, one_smul]
    show lineModel.kernel.covFn bs (fun _ => 1) (rowPt (twoTrain 0 1) 1 i) (rowPt (twoTrain 0 1) 1 j) + _ = _
    rw [line_cov, hr, hr]
    fin_cases i <;> fin_cases j <;> simp [ha] <;> norm_num
  have e2 : fullCross bs lineModel.kernel (fun _ : Fin 1 => 1) (twoTrain 0 1) 2 (rowPt (oneTest (-1)) 1 0) = ![a, z] := by
    funext j
    show lineModel.kernel.covFn bs (fun _ => 1) (rowPt (oneTest (-1)) 1 0) (rowPt (twoTrain 0 1) 1 j) = _
    rw [line_cov, hr, oneTest_row]
    fin_cases j <;> norm_num [ha, hz]
  have e3 : responses (risingTargets t) 2 = ![1, t] := by
    funext j
    show (risingTargets t).get [(j : Nat)] = _
    rw [risingTargets_get]
    fin_cases j <;> rfl
  show Spec.krigingMean (fullCov bs lineModel.kernel (fun _ : Fin 1 => 1) (twoTrain 0 1) 2 + (1:ℝ) • (1 : Matrix (Fin 2) (Fin 2) ℝ))
    (fullCross bs lineModel.kernel (fun _ : Fin 1 => 1) (twoTrain 0 1) 2 (rowPt (oneTest (-1)) 1 0)) (responses (risingTargets t) 2) < M
  rw [e1, e2, e3, kriging_two _ _ _ _ _ hden.ne']
  refine lt_of_eq_of_lt ?_ htM
  rw [hb, hc]
  field_simp
  ring

/-- Responses with three columns that sum to zero. -/
def balancedTargets : Tensor ℝ := ⟨[3, 3], fun k => if k % 3 = 0 then 2 else -1⟩

/-- Non-vacuity of `C116_relations_partial`: three training points, two neighbours, three responses whose sum is zero. -/
example (bs : Flt → ℝ → ℝ) : ∃ (w : NNWrapper) (μ v : Tensor ℝ), w.Exact ∧ w.train = lineTrain ∧
    regressAny bs lineModel w lineTest w.train balancedTargets = .ok (μ, v) ∧ Related 3 (fun _ => 1) 2 μ := by
  obtain ⟨answer, hw⟩ := line_exact
  set w : NNWrapper := ⟨3, 1, lineTrain, 2, fun x y => |x 0 - y 0|, false, answer⟩ with hwd
  have hrel : Related 3 (fun _ => 1) w.N balancedTargets := by
    intro x hx
    have hx3 : x < 3 := hx
    have hg : ∀ c < 3, balancedTargets.get [x, c] = if c = 0 then 2 else -1 := fun c hc => by
      rw [Tensor.get2 balancedTargets rfl]
      show (if (x * 3 + c) % 3 = 0 then (2:ℝ) else -1) = _
      have : (x * 3 + c) % 3 = c := by omega
      rw [this]
    simp only [Finset.sum_range_succ, Finset.sum_range_zero, hg 0 (by norm_num), hg 1 (by norm_num), hg 2 (by norm_num)]
    norm_num
  have hok : ∃ μ v, regressAny bs lineModel w lineTest w.train balancedTargets = .ok (μ, v) := by
    rcases C79_columns_partial bs lineModel rfl rfl w hw lineTest balancedTargets 2 3 (fun _ => 1)
      ⟨1, one_pos, rfl, fun _ => rfl⟩ rfl two_pos (by norm_num [hwd]) (by norm_num [hwd]) trivial rfl (by norm_num [hwd]) with ⟨-, h⟩ | ⟨μ', v', h, -⟩
    · exfalso
      obtain ⟨nn, μ, v, -, h2, -⟩ := C54_regress_always bs lineModel rfl rfl rfl w hw lineTest (singleResponse balancedTargets 0) 2 (fun _ => 1)
        ⟨1, one_pos, rfl, fun _ => rfl⟩ rfl (singleResponse_get (N := 3) (r := 3) rfl 0 0).1 two_pos (by norm_num [hwd]) (by norm_num [hwd]) trivial (.inl one_pos)
      rw [h 0 (by norm_num)] at h2
      cases h2
    · exact ⟨μ', v', h⟩
  obtain ⟨μ, v, h⟩ := hok
  exact ⟨w, μ, v, hw, rfl, h, C116_relations_partial bs lineModel rfl rfl w hw lineTest balancedTargets 2 3 (fun _ => 1)
    ⟨1, one_pos, rfl, fun _ => rfl⟩ rfl two_pos (by norm_num [hwd]) (by norm_num [hwd]) trivial rfl (by norm_num [hwd]) _ hrel μ v h⟩

end MuyGPyS
