import Verif.Props.Continuity
import Verif.Props.ReversionWitness

/-! # C70: where predictions jump, and non-vacuity -/

namespace MuyGPyS
open Py Matrix Topology
open Filter (Tendsto Eventually)

/-- Kriging from one neighbour. -/
theorem kriging_one (A : Matrix (Fin 1) (Fin 1) ℝ) (k y : Fin 1 → ℝ) :
    Spec.krigingMean A k y = k 0 * (y 0 / A 0 0) ∧ Spec.krigingVar 1 A k = 1 - k 0 * (k 0 / A 0 0) := by
  have key : ∀ z : Fin 1 → ℝ, k ⬝ᵥ (A⁻¹ *ᵥ z) = k 0 * (z 0 / A 0 0) := by
    intro z
    rw [Matrix.inv_subsingleton, Ring.inverse_eq_inv']
    simp only [dotProduct, Fin.sum_univ_one, mulVec_diagonal, div_eq_inv_mul]
  exact ⟨key y, by unfold Spec.krigingVar; rw [key k]⟩

/-- The prediction at one test point from its one nearest training point. -/
theorem single_prediction (bs : Flt → ℝ → ℝ) (R : Regressor) (hk : R.kernel.make = R.kernel) (hko : R.gp.kout = KernelObj.kout)
    (N f : Nat) (X : Tensor ℝ) (dist : (Fin f → ℝ) → (Fin f → ℝ) → ℝ) (sq : Bool) (answer : (Fin f → ℝ) → Nat → List Nat)
    (hw : NNWrapper.Exact ⟨N, f, X, 1, dist, sq, answer⟩) (heuc : NNWrapper.Euclidean ⟨N, f, X, 1, dist, sq, answer⟩)
    (Y : Tensor ℝ) (len : Fin f → ℝ) (hlen : R.kernel.deform.HasLengths f len) (hY : Y.shape = [N]) (hν : ∀ b, R.gp.noise.Fits b 1)
    (Q : Tensor ℝ) (hQ : Q.shape = [1, f]) (i : Nat) (hi : i < N)
    (hclear : ∀ j < N, j ≠ i → sqDist (rowPt Q f 0) (rowPt X f i) < sqDist (rowPt Q f 0) (rowPt X f j))
    (hne : R.kernel.covFn bs len (rowPt X f i) (rowPt X f i) + R.gp.noise.mat 1 0 0 0 ≠ 0) :
    ∃ μ v, regressAny bs R ⟨N, f, X, 1, dist, sq, answer⟩ Q X Y = .ok (μ, v) ∧ μ.shape = [1] ∧ v.shape = [1] ∧
      μ.get [0] = R.kernel.covFn bs len (rowPt Q f 0) (rowPt X f i) *
        (Y.get [i] / (R.kernel.covFn bs len (rowPt X f i) (rowPt X f i) + R.gp.noise.mat 1 0 0 0)) := by
  have hrow : ∀ x, pt X f x = rowPt X f x := fun x => by
    have := hw.1
    simp only at this
    funext c; simp only [pt, feature, this, rowPt]
  obtain ⟨nn, h1, -, h⟩ := regress_cases bs R hk hko ⟨N, f, X, 1, dist, sq, answer⟩ hw Q Y 1 len hlen hQ hY one_pos one_pos
    (by show 1 ≤ N; omega) (hν 1)
  obtain ⟨l, e1, e2⟩ := h1 0 one_pos
  obtain ⟨φ, f1, f2⟩ := heuc
  have hmem := nearest_clear e2 (S := {i}) rfl (fun j hj => by rw [Finset.mem_singleton.mp hj]; exact hi)
    (fun j hj x hx hxS => by
      rw [Finset.mem_singleton.mp hj]
      have := hclear x hx fun h => hxS (Finset.mem_singleton.mpr h)
      refine (f2 _ _).trans_lt (lt_of_lt_of_eq ?_ (f2 _ _).symm)
      exact f1 (sqDist_nonneg _ _) (sqDist_nonneg _ _) this)
  have hi0 : pointOf N (nn.get [0, 0]) = i := by
    obtain ⟨x, x1, x2⟩ := rowList_get e1 one_pos
    rw [x2, pointOf_nat]
    exact Finset.mem_singleton.mp ((hmem x).mp (List.mem_of_getElem? x1))
  have hA : (nbrCov bs R.kernel len X N 1 nn 0 + R.gp.noise.mat 1 0) 0 0 =
      R.kernel.covFn bs len (rowPt X f i) (rowPt X f i) + R.gp.noise.mat 1 0 0 0 := by
    rw [Matrix.add_apply]
    congr 1
    show R.kernel.covFn bs len (pt X f (pointOf N (nn.get [0, 0]))) (pt X f (pointOf N (nn.get [0, 0]))) = _
    rw [hi0, hrow]
  rcases h with ⟨⟨p, hp, hd⟩, -⟩ | ⟨-, μ, v, r1, r2, r3, r4⟩
  · obtain rfl : p = 0 := by omega
    exfalso
    apply hne
    rw [← hA]
    have : (nbrCov bs R.kernel len X N 1 nn 0 + R.gp.noise.mat 1 0).det = 0 := hd
    rwa [Matrix.det_fin_one] at this
  · refine ⟨μ, v, r1, r2, r3, ?_⟩
    refine (r4 0 one_pos).1.trans ?_
    refine ((kriging_one (nbrCov bs R.kernel len X N 1 nn 0 + R.gp.noise.mat 1 0) _ _).1).trans ?_
    rw [hA]
    have c1 : nbrCross bs R.kernel len X N 1 nn 0 (rowPt Q f 0) 0 = R.kernel.covFn bs len (rowPt Q f 0) (rowPt X f i) := by
      show R.kernel.covFn bs len (rowPt Q f 0) (pt X f (pointOf N (nn.get [0, 0]))) = _
      rw [hi0, hrow]
    have c2 : nbrTargets Y N 1 nn 0 0 0 = Y.get [i] := by
      show feature Y (pointOf N (nn.get [0, 0])) 0 = _
      rw [hi0]
      simp only [feature, hY]
    rw [c1, c2]

/-- The index of one nearest neighbour among the three training points of `lineTrain`. -/
theorem line_single : ∃ answer, NNWrapper.Exact ⟨3, 1, lineTrain, 1, fun x y => |x 0 - y 0|, false, answer⟩ ∧
    NNWrapper.Euclidean ⟨3, 1, lineTrain, 1, fun x y => |x 0 - y 0|, false, answer⟩ := by
  obtain ⟨answer, hw⟩ := exact_index_exists 3 1 1 lineTrain rfl (fun x y => |x 0 - y 0|) false
  refine ⟨answer, hw, Real.sqrt, fun a ha b hb hab => Real.sqrt_lt_sqrt ha hab, fun x y => ?_⟩
  show |x 0 - y 0| = √(sqDist x y)
  unfold sqDist
  rw [Fin.sum_univ_one, Real.sqrt_sq_eq_abs]

theorem line_rows : rowPt lineTrain 1 0 0 = 0 ∧ rowPt lineTrain 1 1 0 = 1 ∧ rowPt lineTrain 1 2 0 = 3 := by
  refine ⟨?_, ?_, ?_⟩ <;> (show lineTrain.get [_, 0] = _; rw [Tensor.get2 lineTrain rfl]; simp [lineTrain])

/-- One test point on a line. -/
def oneTest (x : ℝ) : Tensor ℝ := ⟨[1, 1], fun _ => x⟩

theorem oneTest_row (x : ℝ) (c : Fin 1) : rowPt (oneTest x) 1 0 c = x := rfl

/-- **C70, where the code fails**: predictions jump where the set of nearest training points changes. With one neighbour, `RBF`, and
training points `0`, `1`, `3` with responses `0`, `1`, `0`, arbitrarily close test points around `1/2` get means that differ by more
than `1/4`. -/
theorem C70_switch_fails : ∃ (R : Regressor) (w : NNWrapper) (len : Fin w.f → ℝ) (Y : Tensor ℝ), R.kernel.make = R.kernel ∧
    R.gp.kout = KernelObj.kout ∧ R.kernel.fn = .rbf ∧ w.Exact ∧ w.Euclidean ∧ R.kernel.deform.HasLengths w.f len ∧ Y.shape = [w.N] ∧
    (∀ b, R.gp.noise.Fits b w.nnCount) ∧ R.gp.noise = .homoscedastic 1 ∧
    ∀ δ > 0, ∃ Q Q' μ v μ' v' : Tensor ℝ, Q.shape = [1, w.f] ∧ Q'.shape = [1, w.f] ∧ (∀ c, |rowPt Q' w.f 0 c - rowPt Q w.f 0 c| < δ) ∧
      regressAny maternGen R w Q w.train Y = .ok (μ, v) ∧ regressAny maternGen R w Q' w.train Y = .ok (μ', v') ∧
      1 / 4 < |μ'.get [0] - μ.get [0]| := by
  obtain ⟨answer, hw, heuc⟩ := line_single
  refine ⟨lineModel, _, fun _ => 1, lineTargets, rfl, rfl, rfl, hw, heuc, ⟨1, one_pos, rfl, fun _ => rfl⟩, rfl, fun _ => trivial, rfl,
    fun δ hδ => ?_⟩
  obtain ⟨t, ht0, ht1, ht2⟩ : ∃ t : ℝ, 0 < t ∧ t < 1 / 4 ∧ 2 * t < δ := by
    refine ⟨min (1 / 8) (δ / 4), by positivity, lt_of_le_of_lt (min_le_left _ _) (by norm_num), ?_⟩
    have := min_le_right (1 / 8) (δ / 4)
    linarith
  obtain ⟨r0, r1, r2⟩ := line_rows
  have hc : ∀ i, lineModel.kernel.covFn maternGen (fun _ => 1) (rowPt lineTrain 1 i) (rowPt lineTrain 1 i) +
      lineModel.gp.noise.mat 1 0 0 0 = 2 := by
    intro i
    rw [line_cov, sub_self]
    show Real.exp _ + ((1:ℝ) • (1 : Matrix (Fin 1) (Fin 1) ℝ)) 0 0 = 2
    rw [one_smul, Matrix.one_apply_eq]
    norm_num
  have hsq : ∀ (x : ℝ) (i : Nat), sqDist (rowPt (oneTest x) 1 0) (rowPt lineTrain 1 i) = (x - rowPt lineTrain 1 i 0) ^ 2 := by
    intro x i; unfold sqDist; rw [Fin.sum_univ_one]; rfl
  obtain ⟨μ, v, a1, -, -, a4⟩ := single_prediction maternGen lineModel rfl rfl 3 1 lineTrain _ _ answer hw heuc lineTargets (fun _ => 1)
    ⟨1, one_pos, rfl, fun _ => rfl⟩ rfl (fun _ => trivial) (oneTest (1 / 2 - t)) rfl 0 (by norm_num)
    (by
      intro j hj hj0
      rw [hsq, hsq, r0]
      interval_cases j
      · exact absurd rfl hj0
      · rw [r1]; nlinarith
      · rw [r2]; nlinarith)
    (by rw [hc]; norm_num)
  obtain ⟨μ', v', b1, -, -, b4⟩ := single_prediction maternGen lineModel rfl rfl 3 1 lineTrain _ _ answer hw heuc lineTargets (fun _ => 1)
    ⟨1, one_pos, rfl, fun _ => rfl⟩ rfl (fun _ => trivial) (oneTest (1 / 2 + t)) rfl 1 (by norm_num)
    (by
      intro j hj hj0
      rw [hsq, hsq, r1]
      interval_cases j
      · rw [r0]; nlinarith
      · exact absurd rfl hj0
      · rw [r2]; nlinarith)
    (by rw [hc]; norm_num)
  refine ⟨_, _, μ, v, μ', v', rfl, rfl, fun c => ?_, a1, b1, ?_⟩
  · show |(1 / 2 + t) - (1 / 2 - t)| < δ
    rw [show (1 / 2 + t) - (1 / 2 - t) = 2 * t by ring, abs_of_pos (by linarith)]
    exact ht2
  · have y0 : lineTargets.get [0] = 0 := by rw [Tensor.get1 _ rfl]; simp [lineTargets]
    have y1 : lineTargets.get [1] = 1 := by rw [Tensor.get1 _ rfl]; simp [lineTargets]
    rw [a4, b4, hc, hc, y0, y1, line_cov, r1, oneTest_row]
    have hexp : 1 / 2 < Real.exp (-(1 / 2 + t - 1) ^ 2 / 2) := by
      have := Real.add_one_le_exp (-(1 / 2 + t - 1) ^ 2 / 2)
      nlinarith
    rw [zero_div, mul_zero, sub_zero, abs_of_pos (by positivity)]
    linarith

/-- Matérn with free smoothness `ν` on distances, unit length scale and noise. -/
noncomputable def lineMaternAt (ν : ℝ) : Regressor :=
  ⟨⟨.isotropy .l2 ⟨Flt.fin 1, Flt.fin 0, Flt.fin 0, true⟩, some ⟨Flt.fin ν, Flt.fin (ν / 2), Flt.fin (2 * ν), false⟩, .gen⟩,
    MuyGPS.make (.homoscedastic 1) KernelObj.kout 1⟩

theorem lineMatern_cov (ν : ℝ) (x y : Fin 1 → ℝ) :
    (lineMaternAt ν).kernel.covFn maternGen (fun _ => 1) x y = maternGen (Flt.fin ν) |x 0 - y 0| := by
  unfold KernelObj.covFn lineMaternAt
  simp only [KFn.value, Deform.metric, Option.map_some, Option.getD_some]
  rw [distOf_l2_sqrt, Fin.sum_univ_one, Real.sqrt_sq_eq_abs, div_one, div_one]

/-- **C70, where the code fails**: with the general Matérn implementation, whatever the smoothness, predictions jump at training
points, because the covariance of a training point with itself is that of two points at distance machine epsilon (C62). -/
theorem C70_matern_jump (ν : ℝ) (hν : 0 < ν) : ∃ (R : Regressor) (w : NNWrapper) (len : Fin w.f → ℝ) (Y : Tensor ℝ),
    R.kernel.make = R.kernel ∧ R.gp.kout = KernelObj.kout ∧ R.kernel.fn = .gen ∧ R.kernel.smoothness.map (·.val) = some (Flt.fin ν) ∧
    w.Exact ∧ w.Euclidean ∧ R.kernel.deform.HasLengths w.f len ∧ Y.shape = [w.N] ∧ (∀ b, R.gp.noise.Fits b w.nnCount) ∧
    ∃ c > 0, ∀ δ > 0, ∃ Q Q' μ v μ' v' : Tensor ℝ, Q.shape = [1, w.f] ∧ Q'.shape = [1, w.f] ∧ rowPt Q w.f 0 = rowPt w.train w.f 1 ∧
      w.ClearAt (rowPt Q w.f 0) {1} ∧ (∀ c, |rowPt Q' w.f 0 c - rowPt Q w.f 0 c| < δ) ∧
      regressAny maternGen R w Q w.train Y = .ok (μ, v) ∧ regressAny maternGen R w Q' w.train Y = .ok (μ', v') ∧
      c < |μ'.get [0] - μ.get [0]| := by
  obtain ⟨answer, hw, heuc⟩ := line_single
  obtain ⟨r0, r1, r2⟩ := line_rows
  set a := maternCorrelation ν machEps with ha
  obtain ⟨k1, k2, k3⟩ := C62_correlation ν hν
  obtain ⟨ha0, ha1⟩ := k1 _ machEps_pos
  rw [← ha] at ha0 ha1
  have hc : (lineMaternAt ν).kernel.covFn maternGen (fun _ => 1) (rowPt lineTrain 1 1) (rowPt lineTrain 1 1) +
      (lineMaternAt ν).gp.noise.mat 1 0 0 0 = a + 1 := by
    rw [lineMatern_cov, sub_self, abs_zero, maternGen_zero, ← ha]
    show a + ((1:ℝ) • (1 : Matrix (Fin 1) (Fin 1) ℝ)) 0 0 = a + 1
    rw [one_smul, Matrix.one_apply_eq]
  have hsq : ∀ (x : ℝ) (i : Nat), sqDist (rowPt (oneTest x) 1 0) (rowPt lineTrain 1 i) = (x - rowPt lineTrain 1 i 0) ^ 2 := by
    intro x i; unfold sqDist; rw [Fin.sum_univ_one]; rfl
  have hclear : ∀ x : ℝ, |x - 1| < 1 / 4 → ∀ j < 3, j ≠ 1 →
      sqDist (rowPt (oneTest x) 1 0) (rowPt lineTrain 1 1) < sqDist (rowPt (oneTest x) 1 0) (rowPt lineTrain 1 j) := by
    intro x hx j hj hj0
    rw [abs_lt] at hx
    rw [hsq, hsq, r1]
    interval_cases j
    · rw [r0]; nlinarith
    · exact absurd rfl hj0
    · rw [r2]; nlinarith
  have y1 : lineTargets.get [1] = 1 := by rw [Tensor.get1 _ rfl]; simp [lineTargets]
  have hpred : ∀ x : ℝ, |x - 1| < 1 / 4 → ∃ μ v, regressAny maternGen (lineMaternAt ν) ⟨3, 1, lineTrain, 1, fun x y => |x 0 - y 0|, false, answer⟩
      (oneTest x) lineTrain lineTargets = .ok (μ, v) ∧ μ.get [0] = maternGen (Flt.fin ν) |x - 1| / (a + 1) := by
    intro x hx
    obtain ⟨μ, v, a1, -, -, a4⟩ := single_prediction maternGen (lineMaternAt ν) rfl rfl 3 1 lineTrain _ _ answer hw heuc lineTargets
      (fun _ => 1) ⟨1, one_pos, rfl, fun _ => rfl⟩ rfl (fun _ => trivial) (oneTest x) rfl 1 (by norm_num) (hclear x hx)
      (by rw [hc]; linarith)
    refine ⟨μ, v, a1, ?_⟩
    rw [a4, hc, y1, lineMatern_cov, oneTest_row, r1]
    ring
  have hpos : 0 < (1 - a) / (2 * (a + 1)) := by
    have : 0 < 1 - a := by linarith
    positivity
  refine ⟨lineMaternAt ν, _, fun _ => 1, lineTargets, rfl, rfl, rfl, rfl, hw, heuc, ⟨1, one_pos, rfl, fun _ => rfl⟩, rfl,
    fun _ => trivial, (1 - a) / (2 * (a + 1)), hpos, fun δ hδ => ?_⟩
  -- a distance at which the correlation is close to one
  have hev := k3.eventually (lt_mem_nhds (show (1 + a) / 2 < 1 by linarith))
  have hsm : ∀ᶠ d : ℝ in 𝓝[>] 0, d < min (1 / 4) δ :=
    nhdsWithin_le_nhds (gt_mem_nhds (by positivity))
  obtain ⟨d, ⟨hd1, hd2⟩, hd0⟩ := ((hev.and hsm).and self_mem_nhdsWithin).exists
  have hd0' : 0 < d := hd0
  have hd4 : d < 1 / 4 := lt_of_lt_of_le hd2 (min_le_left _ _)
  have hdδ : d < δ := lt_of_lt_of_le hd2 (min_le_right _ _)
  obtain ⟨μ, v, a1, a2⟩ := hpred 1 (by norm_num)
  obtain ⟨μ', v', b1, b2⟩ := hpred (1 + d) (by rw [add_sub_cancel_left, abs_of_pos hd0']; exact hd4)
  refine ⟨oneTest 1, oneTest (1 + d), μ, v, μ', v', rfl, rfl, ?_, ?_, fun c => ?_, a1, b1, ?_⟩
  · funext c
    rw [Subsingleton.elim c 0]
    exact r1.symm
  · refine ⟨rfl, fun i hi => by rw [Finset.mem_singleton.mp hi]; show 1 < 3; norm_num, fun i hi j hj hjS => ?_⟩
    rw [Finset.mem_singleton.mp hi]
    exact hclear 1 (by norm_num) j hj fun h => hjS (Finset.mem_singleton.mpr h)
  · show |1 + d - 1| < δ
    rw [add_sub_cancel_left, abs_of_pos hd0']; exact hdδ
  · rw [a2, b2, add_sub_cancel_left, abs_of_pos hd0', sub_self, abs_zero, maternGen_zero, ← ha, maternGen_pos ν hd0', ← sub_div]
    have hnum : (1 - a) / 2 < maternCorrelation ν d - a := by linarith
    rw [abs_of_pos (div_pos (by linarith) (by linarith)), ← div_div]
    exact div_lt_div_of_pos_right hnum (by linarith)

/-- Non-vacuity of `C70_continuous_partial`: around `1/4` the one nearest training point of `lineTrain` is `0`, and predictions with
the RBF model are continuous there. -/
example (ε : ℝ) (hε : 0 < ε) : ∃ (w : NNWrapper) (δ : ℝ), w.Exact ∧ w.ClearAt (fun _ => 1 / 4) {0} ∧ 0 < δ ∧
    ∀ (m m' : Nat) (Q Q' μ v μ' v' : Tensor ℝ), Q.shape = [m, w.f] → Q'.shape = [m', w.f] →
      regressAny maternGen lineModel w Q w.train lineTargets = .ok (μ, v) →
      regressAny maternGen lineModel w Q' w.train lineTargets = .ok (μ', v') →
      ∀ p < m, ∀ p' < m', rowPt Q w.f p = (fun _ => 1 / 4) → (∀ c, |rowPt Q' w.f p' c - 1 / 4| < δ) →
        |μ'.get [p'] - μ.get [p]| < ε := by
  obtain ⟨answer, hw, heuc⟩ := line_single
  obtain ⟨r0, r1, r2⟩ := line_rows
  have hq : NNWrapper.ClearAt ⟨3, 1, lineTrain, 1, fun x y => |x 0 - y 0|, false, answer⟩ (fun _ => 1 / 4) {0} := by
    refine ⟨rfl, fun i hi => by rw [Finset.mem_singleton.mp hi]; show 0 < 3; norm_num, fun i hi j hj hjS => ?_⟩
    rw [Finset.mem_singleton.mp hi]
    have hj3 : j < 3 := hj
    have hj0 : j ≠ 0 := fun h => hjS (Finset.mem_singleton.mpr h)
    unfold sqDist
    rw [Fin.sum_univ_one, Fin.sum_univ_one, r0]
    interval_cases j
    · exact absurd rfl hj0
    · rw [r1]; norm_num
    · rw [r2]; norm_num
  obtain ⟨δ, hδ, h⟩ := C70_continuous_partial lineModel rfl rfl (fun h => by cases h) _ hw heuc lineTargets (fun _ => 1)
    ⟨1, one_pos, rfl, fun _ => rfl⟩ rfl one_pos (by show 1 ≤ 3; norm_num) (fun _ => trivial) _ {0} hq (fun h => by cases h) ε hε
  exact ⟨_, δ, hw, hq, hδ, fun m m' Q Q' μ v μ' v' h1 h2 h3 h4 p hp p' hp' h5 h6 => (h m m' Q Q' μ v μ' v' h1 h2 h3 h4 p hp p' hp' h5 h6).1⟩

end MuyGPyS
