import Verif.Props.Rounding
import Verif.Props.ContinuityFails

/-! # C113: where rounding matters, and non-vacuity -/

namespace MuyGPyS
open Py Matrix Topology

/-- Two training points on a line. -/
def twoTrain (a b : ℝ) : Tensor ℝ := ⟨[2, 1], fun k => if k = 0 then a else b⟩

theorem twoTrain_get (a b : ℝ) (i : Nat) : (twoTrain a b).get [i, 0] = if i = 0 then a else b := by
  rw [Tensor.get2 (twoTrain a b) rfl]
  simp [twoTrain]

/-- Responses `0` and `1`. -/
def twoTargets : Tensor ℝ := ⟨[2], fun k => if k = 0 then 0 else 1⟩

theorem twoTargets_get (i : Nat) : twoTargets.get [i] = if i = 0 then 0 else 1 := by
  rw [Tensor.get1 _ rfl]
  simp [twoTargets]

theorem two_index (a b : ℝ) : ∃ answer, NNWrapper.Exact ⟨2, 1, twoTrain a b, 1, fun x y => |x 0 - y 0|, false, answer⟩ ∧
    NNWrapper.Euclidean ⟨2, 1, twoTrain a b, 1, fun x y => |x 0 - y 0|, false, answer⟩ := by
  obtain ⟨answer, hw⟩ := exact_index_exists 2 1 1 (twoTrain a b) rfl (fun x y => |x 0 - y 0|) false
  refine ⟨answer, hw, Real.sqrt, fun a ha b hb hab => Real.sqrt_lt_sqrt ha hab, fun x y => ?_⟩
  show |x 0 - y 0| = √(sqDist x y)
  unfold sqDist
  rw [Fin.sum_univ_one, Real.sqrt_sq_eq_abs]

/-- The prediction at `0` from the nearer of two training points. -/
theorem two_prediction (a b : ℝ) (answer : (Fin 1 → ℝ) → Nat → List Nat)
    (hw : NNWrapper.Exact ⟨2, 1, twoTrain a b, 1, fun x y => |x 0 - y 0|, false, answer⟩)
    (heuc : NNWrapper.Euclidean ⟨2, 1, twoTrain a b, 1, fun x y => |x 0 - y 0|, false, answer⟩) (i : Nat) (hi : i < 2)
    (hab : if i = 0 then a ^ 2 < b ^ 2 else b ^ 2 < a ^ 2) :
    ∃ μ v, regressAny maternGen lineModel ⟨2, 1, twoTrain a b, 1, fun x y => |x 0 - y 0|, false, answer⟩ (oneTest 0) (twoTrain a b) twoTargets =
        .ok (μ, v) ∧ μ.get [0] = if i = 0 then 0 else Real.exp (-b ^ 2 / 2) / 2 := by
  have hr : ∀ i : Nat, rowPt (twoTrain a b) 1 i 0 = if i = 0 then a else b := fun i => twoTrain_get a b i
  have hsq : ∀ i : Nat, sqDist (rowPt (oneTest 0) 1 0) (rowPt (twoTrain a b) 1 i) = (if i = 0 then a else b) ^ 2 := by
    intro i; unfold sqDist; rw [Fin.sum_univ_one, hr]; show (0 - _) ^ 2 = _; ring
  have hc : ∀ i, lineModel.kernel.covFn maternGen (fun _ => 1) (rowPt (twoTrain a b) 1 i) (rowPt (twoTrain a b) 1 i) +
      lineModel.gp.noise.mat 1 0 0 0 = 2 := by
    intro i
    rw [line_cov, sub_self]
    show Real.exp _ + ((1:ℝ) • (1 : Matrix (Fin 1) (Fin 1) ℝ)) 0 0 = 2
    rw [one_smul, Matrix.one_apply_eq]
    norm_num
  obtain ⟨μ, v, a1, -, -, a4⟩ := single_prediction maternGen lineModel rfl rfl 2 1 (twoTrain a b) _ _ answer hw heuc twoTargets (fun _ => 1)
    ⟨1, one_pos, rfl, fun _ => rfl⟩ rfl (fun _ => trivial) (oneTest 0) rfl i hi
    (by
      intro j hj hji
      rw [hsq, hsq]
      interval_cases i <;> interval_cases j <;> simp_all)
    (by rw [hc]; norm_num)
  refine ⟨μ, v, a1, a4.trans ?_⟩
  rw [hc, twoTargets_get, line_cov, hr, oneTest_row]
  by_cases h : i = 0
  · simp [h]
  · simp only [h, if_false]
    rw [zero_sub, neg_sq]
    ring

/-- **C113, where the code fails**: at a test point equally far from two training points, arbitrarily small changes of the training
features alone change the prediction. With one neighbour, `RBF`, training points `-1`, `1` with responses `0`, `1` and the test point
`0`: whatever the index answers, there are training tables within any `δ` whose mean differs by more than `1/8`. -/
theorem C113_tie_fails : ∃ (R : Regressor) (N f : Nat) (X Q Y : Tensor ℝ) (len : Fin f → ℝ), R.kernel.make = R.kernel ∧
    R.gp.kout = KernelObj.kout ∧ R.kernel.fn = .rbf ∧ R.gp.noise = .homoscedastic 1 ∧ R.kernel.deform.HasLengths f len ∧
    X.shape = [N, f] ∧ Q.shape = [1, f] ∧ Y.shape = [N] ∧
    ∀ w : NNWrapper, w.N = N → w.f = f → w.nnCount = 1 → w.train = X → w.Exact → w.Euclidean →
      ∃ μ v, regressAny maternGen R w Q X Y = .ok (μ, v) ∧ ∀ δ > 0, ∃ w' : NNWrapper, w'.N = N ∧ w'.f = f ∧ w'.nnCount = 1 ∧
        w'.Exact ∧ w'.Euclidean ∧ CloseRows N f δ X w'.train ∧
        ∃ μ' v', regressAny maternGen R w' Q w'.train Y = .ok (μ', v') ∧ 1 / 8 < |μ'.get [0] - μ.get [0]| := by
  refine ⟨lineModel, 2, 1, twoTrain (-1) 1, oneTest 0, twoTargets, fun _ => 1, rfl, rfl, rfl, rfl, ⟨1, one_pos, rfl, fun _ => rfl⟩,
    rfl, rfl, rfl, ?_⟩
  rintro ⟨N, f, X, n, dist, sq, ans⟩ rfl rfl rfl rfl hw heuc
  obtain ⟨nn, μ, v, -, hrun, -⟩ := C54_regress_always maternGen lineModel rfl rfl (by trivial) _ hw (oneTest 0) twoTargets 1 (fun _ => 1)
    ⟨1, one_pos, rfl, fun _ => rfl⟩ rfl rfl one_pos one_pos (by show 1 ≤ 2; norm_num) trivial (Or.inl (by norm_num))
  refine ⟨μ, v, hrun, fun δ hδ => ?_⟩
  obtain ⟨t, ht0, ht1, ht2⟩ : ∃ t : ℝ, 0 < t ∧ t < 1 / 4 ∧ t < δ := by
    refine ⟨min (1 / 8) (δ / 2), by positivity, lt_of_le_of_lt (min_le_left _ _) (by norm_num), ?_⟩
    have := min_le_right (1 / 8) (δ / 2)
    linarith
  have hclose : ∀ a b : ℝ, |a - -1| < δ → |b - 1| < δ → CloseRows 2 1 δ (twoTrain (-1) 1) (twoTrain a b) := by
    intro a b ha hb i hi c hc
    obtain rfl : c = 0 := by omega
    rw [twoTrain_get, twoTrain_get]
    interval_cases i
    · exact ha
    · exact hb
  by_cases hμ : |0 - μ.get [0]| ≤ 1 / 8
  · -- move the first training point away
    obtain ⟨answer, hw', heuc'⟩ := two_index (-1 - t) 1
    obtain ⟨μ', v', r1, r2⟩ := two_prediction (-1 - t) 1 answer hw' heuc' 1 (by norm_num) (by rw [if_neg one_ne_zero]; nlinarith)
    refine ⟨_, rfl, rfl, rfl, hw', heuc', hclose _ _ ?_ (by simpa using hδ), μ', v', r1, ?_⟩
    · rw [show -1 - t - -1 = -t by ring, abs_neg, abs_of_pos ht0]; exact ht2
    · rw [r2, if_neg one_ne_zero]
      have hexp : 1 / 2 < Real.exp (-(1:ℝ) ^ 2 / 2) := by
        have h1 : Real.exp (-(1:ℝ) ^ 2 / 2) ^ 2 = Real.exp (-1) := by rw [← Real.exp_nat_mul]; norm_num
        have h2 : (1:ℝ) / 4 < Real.exp (-1) := by
          rw [Real.exp_neg, one_div]
          exact inv_strictAnti₀ (Real.exp_pos _) (lt_trans Real.exp_one_lt_d9 (by norm_num))
        have := Real.exp_pos (-(1:ℝ) ^ 2 / 2)
        nlinarith
      rw [zero_sub, abs_neg] at hμ
      have := (abs_le.mp hμ).2
      rw [lt_abs]
      left
      linarith
  · -- move the second training point away
    obtain ⟨answer, hw', heuc'⟩ := two_index (-1) (1 + t)
    obtain ⟨μ', v', r1, r2⟩ := two_prediction (-1) (1 + t) answer hw' heuc' 0 (by norm_num) (by rw [if_pos rfl]; nlinarith)
    refine ⟨_, rfl, rfl, rfl, hw', heuc', hclose _ _ (by simpa using hδ) ?_, μ', v', r1, ?_⟩
    · rw [add_sub_cancel_left, abs_of_pos ht0]; exact ht2
    · rw [r2, if_pos rfl]; exact not_le.mp hμ

/-- **C113, where the code fails**: with the general Matérn implementation, whatever the smoothness, rounding a test point that is a
training point changes its prediction however small the rounding, although its nearest training point stays the same. -/
theorem C113_matern_fails (ν : ℝ) (hν : 0 < ν) : ∃ (R : Regressor) (w : NNWrapper) (len : Fin w.f → ℝ) (Y : Tensor ℝ),
    R.kernel.make = R.kernel ∧ R.gp.kout = KernelObj.kout ∧ R.kernel.fn = .gen ∧ R.kernel.smoothness.map (·.val) = some (Flt.fin ν) ∧
    w.Exact ∧ w.Euclidean ∧ R.kernel.deform.HasLengths w.f len ∧ Y.shape = [w.N] ∧ (∀ b, R.gp.noise.Fits b w.nnCount) ∧
    ∃ c > 0, ∀ δ > 0, ∃ Q Q' μ v μ' v' : Tensor ℝ, Q.shape = [1, w.f] ∧ Q'.shape = [1, w.f] ∧
      w.ClearAt (rowPt Q w.f 0) {1} ∧ CloseRows 1 w.f δ Q Q' ∧
      regressAny maternGen R w Q w.train Y = .ok (μ, v) ∧ regressAny maternGen R w Q' w.train Y = .ok (μ', v') ∧
      c < |μ'.get [0] - μ.get [0]| := by
  obtain ⟨R, w, len, Y, h1, h2, h3, h4, h5, h6, h7, h8, h9, c, hc, h⟩ := C70_matern_jump ν hν
  refine ⟨R, w, len, Y, h1, h2, h3, h4, h5, h6, h7, h8, h9, c, hc, fun δ hδ => ?_⟩
  obtain ⟨Q, Q', μ, v, μ', v', a1, a2, -, a4, a5, a6, a7, a8⟩ := h δ hδ
  refine ⟨Q, Q', μ, v, μ', v', a1, a2, a4, ?_, a6, a7, a8⟩
  intro i hi c hc
  obtain rfl : i = 0 := by omega
  exact a5 ⟨c, hc⟩

/-- Non-vacuity of `C113_rounding_partial`: the training points `-1`, `2` and the test point `0`. -/
example (ε : ℝ) (hε : 0 < ε) : ∃ (w : NNWrapper) (μ v : Tensor ℝ) (δ : ℝ), w.Exact ∧ w.train = twoTrain (-1) 2 ∧
    regressAny maternGen lineModel w (oneTest 0) w.train twoTargets = .ok (μ, v) ∧ 0 < δ ∧
    ∀ w' : NNWrapper, w'.N = w.N → w'.f = w.f → w'.nnCount = w.nnCount → w'.Exact → w'.Euclidean →
      ∀ Q' Y' : Tensor ℝ, Q'.shape = [1, w.f] → Y'.shape = [w.N] → CloseRows w.N w.f δ w.train w'.train →
      CloseRows 1 w.f δ (oneTest 0) Q' → CloseEntries w.N δ twoTargets Y' →
      ∃ μ' v', regressAny maternGen lineModel w' Q' w'.train Y' = .ok (μ', v') ∧ CloseEntries 1 ε μ μ' ∧ CloseEntries 1 ε v v' := by
  obtain ⟨answer, hw, heuc⟩ := two_index (-1) 2
  obtain ⟨μ, v, r1, -⟩ := two_prediction (-1) 2 answer hw heuc 0 (by norm_num) (by norm_num)
  obtain ⟨δ, hδ, h⟩ := C113_rounding_partial lineModel rfl rfl (fun h => by cases h) _ hw heuc (oneTest 0) twoTargets μ v 1 (fun _ => 1)
    ⟨1, one_pos, rfl, fun _ => rfl⟩ rfl rfl one_pos one_pos (by show 1 ≤ 2; norm_num) (fun _ => trivial) (fun _ => {0})
    (by
      intro p hp
      obtain rfl : p = 0 := by omega
      refine ⟨rfl, fun i hi => by rw [Finset.mem_singleton.mp hi]; show 0 < 2; norm_num, fun i hi j hj hjS => ?_⟩
      rw [Finset.mem_singleton.mp hi]
      have hj2 : j < 2 := hj
      have hj0 : j ≠ 0 := fun h => hjS (Finset.mem_singleton.mpr h)
      obtain rfl : j = 1 := by omega
      unfold sqDist
      rw [Fin.sum_univ_one, Fin.sum_univ_one]
      show (0 - (twoTrain (-1) 2).get [0, 0]) ^ 2 < (0 - (twoTrain (-1) 2).get [1, 0]) ^ 2
      rw [twoTrain_get, twoTrain_get]
      norm_num)
    (fun h => by cases h) r1 ε hε
  exact ⟨_, μ, v, δ, hw, rfl, r1, hδ, h⟩

end MuyGPyS
