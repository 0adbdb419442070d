import Verif.Props.Information
import Verif.Props.UpdateWitness
import Verif.Props.ContinuityFails

/-! # C84: an additional training point can increase the reported variance, and non-vacuity -/

namespace MuyGPyS
open Py Matrix

/-- Matérn kernel of smoothness 1/2, unit length scale, no noise, unit scale. -/
noncomputable def halfModel : Regressor :=
  ⟨⟨.isotropy .l2 (fixedParam (Flt.fin 1)), some (fixedParam (Flt.fin (1 / 2))), .m05⟩, MuyGPS.make .null KernelObj.kout 1⟩

theorem half_make : halfModel.kernel.make = halfModel.kernel := by
  unfold KernelObj.make halfModel
  simp only
  rw [form_half]

theorem half_cov (b : Flt → ℝ → ℝ) (x y : Fin 1 → ℝ) : halfModel.kernel.covFn b (fun _ => 1) x y = Real.exp (-|x 0 - y 0|) := by
  unfold KernelObj.covFn halfModel
  simp only [KFn.value, Deform.metric]
  rw [distOf_l2_sqrt]
  rw [Fin.sum_univ_one, Real.sqrt_sq_eq_abs]
  simp

/-- Training points `-1` and `3`, and a third one at `-2`. -/
def sparsePt (i : Nat) : ℝ := if i = 0 then -1 else if i = 1 then 3 else -2

def sparseTrain (N : Nat) : Tensor ℝ := ⟨[N, 1], sparsePt⟩

theorem sparse_row (N i : Nat) (c : Fin 1) : rowPt (sparseTrain N) 1 i c = sparsePt i := by
  show (sparseTrain N).get [i, c] = _
  rw [Tensor.get2 (sparseTrain N) rfl]
  have : (c : Nat) = 0 := by omega
  simp [sparseTrain]

/-- The index over the first `N` of the training points, with `k` neighbours. -/
theorem sparse_index (N k : Nat) : ∃ answer, NNWrapper.Exact ⟨N, 1, sparseTrain N, k, fun x y => |x 0 - y 0|, false, answer⟩ ∧
    NNWrapper.Euclidean ⟨N, 1, sparseTrain N, k, fun x y => |x 0 - y 0|, false, answer⟩ := by
  obtain ⟨answer, hw⟩ := exact_index_exists N 1 k (sparseTrain N) rfl (fun x y => |x 0 - y 0|) false
  refine ⟨answer, hw, Real.sqrt, fun a ha b hb hab => Real.sqrt_lt_sqrt ha hab, fun x y => ?_⟩
  show |x 0 - y 0| = √(sqDist x y)
  unfold sqDist
  rw [Fin.sum_univ_one, Real.sqrt_sq_eq_abs]

theorem sparse_distinct : DistinctRows (sparseTrain 3) 3 1 := by
  intro i hi j hj hij
  refine ⟨0, one_pos, ?_⟩
  have e : ∀ i, feature (sparseTrain 3) i 0 = sparsePt i := fun i => sparse_row 3 i 0
  rw [e, e]
  interval_cases i <;> interval_cases j <;> first | exact absurd rfl hij | norm_num [sparsePt]

theorem sparse_ties (answer : (Fin 1 → ℝ) → Nat → List Nat) (k : Nat) :
    NNWrapper.NoTies ⟨3, 1, sparseTrain 3, k, fun x y => |x 0 - y 0|, false, answer⟩ (oneTest 0) 1 := by
  intro q hq i hi j hj hij
  obtain rfl : q = 0 := by omega
  have hi' : i < 3 := hi
  have hj' : j < 3 := hj
  show |rowPt (oneTest 0) 1 0 0 - rowPt (sparseTrain 3) 1 i 0| ≠ |rowPt (oneTest 0) 1 0 0 - rowPt (sparseTrain 3) 1 j 0|
  rw [sparse_row, sparse_row, oneTest_row]
  interval_cases i <;> interval_cases j <;> first | exact absurd rfl hij | norm_num [sparsePt]

theorem sparse_extends (answer answer' : (Fin 1 → ℝ) → Nat → List Nat) (k k' : Nat) :
    NNWrapper.Extends ⟨3, 1, sparseTrain 3, k', fun x y => |x 0 - y 0|, false, answer'⟩
      ⟨2, 1, sparseTrain 2, k, fun x y => |x 0 - y 0|, false, answer⟩ id := by
  refine ⟨fun i hi => ⟨?_, ?_⟩, fun i _ j _ h => h⟩
  · have : i < 2 := hi
    show i < 3
    omega
  · funext c
    show rowPt (sparseTrain 3) 1 i c = rowPt (sparseTrain 2) 1 i c
    rw [sparse_row, sparse_row]

/-- Kriging variance from two observations with unit variances. -/
theorem kriging_unit_pair (A : Matrix (Fin 2) (Fin 2) ℝ) (k : Fin 2 → ℝ) (a u v : ℝ) (hA : A = !![1, a; a, 1]) (h0 : k 0 = u) (h1 : k 1 = v) :
    Spec.krigingVar 1 A k = 1 - (u ^ 2 + v ^ 2 - 2 * a * u * v) / (1 - a ^ 2) := by
  subst hA
  have hk : k = ![u, v] := by funext i; fin_cases i <;> simp [h0, h1]
  subst hk
  unfold Spec.krigingVar
  rw [Matrix.inv_def, det_fin_two, adjugate_fin_two]
  simp [Matrix.mulVec, dotProduct, Fin.sum_univ_two]
  have e : 1 - a * a = 1 - a ^ 2 := by ring
  rw [e]
  ring

/-- The variance `halfModel` reports at `0` from the training points `i` and `j`, if these are the two nearest ones. -/
theorem sparse_variance (bs : Flt → ℝ → ℝ) (N i j : Nat) (hN : 2 ≤ N) (answer : (Fin 1 → ℝ) → Nat → List Nat)
    (hw : NNWrapper.Exact ⟨N, 1, sparseTrain N, 2, fun x y => |x 0 - y 0|, false, answer⟩) (hN3 : N ≤ 3) (Y : Tensor ℝ) (hY : Y.shape = [N])
    (hl : Nearest (· < N) (fun j => |sparsePt j|) 2 [i, j]) :
    ∃ μ v, regressAny bs halfModel ⟨N, 1, sparseTrain N, 2, fun x y => |x 0 - y 0|, false, answer⟩ (oneTest 0) (sparseTrain N) Y = .ok (μ, v) ∧
      v.get [0] = 1 - (Real.exp (-|sparsePt i|) ^ 2 + Real.exp (-|sparsePt j|) ^ 2 -
        2 * Real.exp (-|sparsePt i - sparsePt j|) * Real.exp (-|sparsePt i|) * Real.exp (-|sparsePt j|)) /
          (1 - Real.exp (-|sparsePt i - sparsePt j|) ^ 2) := by
  have hd : DistinctRows (sparseTrain N) N 1 := by
    intro i hi j hj hij
    refine ⟨0, one_pos, ?_⟩
    have e : ∀ i, feature (sparseTrain N) i 0 = sparsePt i := fun i => sparse_row N i 0
    rw [e, e]
    have hi' : i < 3 := by omega
    have hj' : j < 3 := by omega
    clear hl
    interval_cases i <;> interval_cases j <;> first | exact absurd rfl hij | norm_num [sparsePt]
  obtain ⟨nn, μ, v, h1, h2, -, -, h5⟩ := C54_regress_always bs halfModel half_make rfl rfl
    ⟨N, 1, sparseTrain N, 2, fun x y => |x 0 - y 0|, false, answer⟩ hw (oneTest 0) Y 1 (fun _ => 1) ⟨1, one_pos, rfl, fun _ => rfl⟩ rfl hY
    one_pos two_pos hN trivial hd
  refine ⟨μ, v, h2, ?_⟩
  obtain ⟨-, b2, -⟩ := h5 0 one_pos
  obtain ⟨l, e1, e2⟩ := h1 0 one_pos
  have hl' : l = [i, j] := by
    refine nearest_unique (S := (· < N)) (d := fun j => |sparsePt j|) (fun a b ha hb hab => ?_) ?_ hl
    · have ha' : a < 3 := lt_of_lt_of_le ha hN3
      have hb' : b < 3 := lt_of_lt_of_le hb hN3
      clear hl e2 e1
      interval_cases a <;> interval_cases b <;> first | exact absurd rfl hab | norm_num [sparsePt]
    · have : (fun j => |rowPt (oneTest 0) 1 0 0 - rowPt (sparseTrain N) 1 j 0|) = fun j => |sparsePt j| := by
        funext j
        rw [sparse_row, oneTest_row, zero_sub, abs_neg]
      rw [← this]
      exact e2
  subst hl'
  have i0 : nn.get [0, 0] = (i : Int) := by
    obtain ⟨x, x1, x2⟩ := rowList_get e1 (j := 0) two_pos
    obtain rfl : i = x := by simpa using x1
    exact x2
  have i1 : nn.get [0, 1] = (j : Int) := by
    obtain ⟨x, x1, x2⟩ := rowList_get e1 (j := 1) (by norm_num)
    obtain rfl : j = x := by simpa using x1
    exact x2
  have hpt : ∀ i : Nat, pt (sparseTrain N) 1 (pointOf N (i : Int)) 0 = sparsePt i := fun i => by
    rw [pointOf_nat]; exact sparse_row N i 0
  have hsc : halfModel.gp.boundScale = 1 := rfl
  have hno : halfModel.gp.noise.mat 2 0 = 0 := rfl
  rw [b2, hsc, one_mul]
  show Spec.krigingVar 1 (nbrCov bs halfModel.kernel (fun _ : Fin 1 => 1) (sparseTrain N) N 2 nn 0 + halfModel.gp.noise.mat 2 0)
    (nbrCross bs halfModel.kernel (fun _ : Fin 1 => 1) (sparseTrain N) N 2 nn 0 (rowPt (oneTest 0) 1 0)) = _
  rw [hno, add_zero]
  refine kriging_unit_pair _ _ _ _ _ ?_ ?_ ?_
  · ext a b
    unfold nbrCov
    rw [half_cov]
    fin_cases a <;> fin_cases b
    · simp
    · show Real.exp (-|pt _ _ (pointOf N (nn.get [0, 0])) 0 - pt _ _ (pointOf N (nn.get [0, 1])) 0|) = _
      rw [i0, i1, hpt, hpt]; rfl
    · show Real.exp (-|pt _ _ (pointOf N (nn.get [0, 1])) 0 - pt _ _ (pointOf N (nn.get [0, 0])) 0|) = _
      rw [i0, i1, hpt, hpt, abs_sub_comm]; rfl
    · simp
  · unfold nbrCross
    rw [half_cov]
    show Real.exp (-|0 - pt _ _ (pointOf N (nn.get [0, 0])) 0|) = _
    rw [i0, hpt, zero_sub, abs_neg]
  · unfold nbrCross
    rw [half_cov]
    show Real.exp (-|0 - pt _ _ (pointOf N (nn.get [0, 1])) 0|) = _
    rw [i1, hpt, zero_sub, abs_neg]

theorem sparse_pts : sparsePt 0 = -1 ∧ sparsePt 1 = 3 ∧ sparsePt 2 = -2 := by
  refine ⟨?_, ?_, ?_⟩ <;> norm_num [sparsePt]

/-- **C84, where the code fails**: with the number of neighbours left as it was, an additional training point can increase the
reported variance, because it displaces a farther but more informative one: Matérn kernel of smoothness 1/2 without noise, two
neighbours, training points `-1` and `3`, test point `0`; with the additional training point `-2` the variance at `0` grows. -/
theorem C84_more_points_fails (bs : Flt → ℝ → ℝ) : ∃ (R : Regressor) (w w' : NNWrapper) (Q Y Y' μ v μ' v' : Tensor ℝ),
    R.kernel.make = R.kernel ∧ R.gp.kout = KernelObj.kout ∧ R.kernel.fn.Suits R.kernel.deform.metric ∧ R.gp.boundScale = 1 ∧
    R.gp.noise.Level 0 ∧ w.Exact ∧ w'.Exact ∧ w.Euclidean ∧ w'.Euclidean ∧ w'.Extends w id ∧ w.N = 2 ∧ w'.N = 3 ∧ w.nnCount = 2 ∧
    w'.nnCount = 2 ∧ DistinctRows w'.train w'.N w.f ∧ w'.NoTies Q 1 ∧
    regressAny bs R w Q w.train Y = .ok (μ, v) ∧ regressAny bs R w' Q w'.train Y' = .ok (μ', v') ∧ v.get [0] < v'.get [0] := by
  obtain ⟨ans, hw, he⟩ := sparse_index 2 2
  obtain ⟨ans', hw', he'⟩ := sparse_index 3 2
  obtain ⟨p0, p1, p2⟩ := sparse_pts
  obtain ⟨μ, v, r1, r2⟩ := sparse_variance bs 2 0 1 le_rfl ans hw (by norm_num) ⟨[2], fun _ => 0⟩ rfl (by
    refine ⟨rfl, by simp, by simp, by simp [p0, p1], fun i _ j hj hjl => ?_⟩
    exfalso
    have : j < 2 := hj
    interval_cases j <;> simp at hjl)
  obtain ⟨μ', v', s1, s2⟩ := sparse_variance bs 3 0 2 (by norm_num) ans' hw' le_rfl ⟨[3], fun _ => 0⟩ rfl (by
    refine ⟨rfl, by simp, by simp, by simp [p0, p2], fun i hi j hj hjl => ?_⟩
    have hj' : j < 3 := hj
    have hj1 : j = 1 := by interval_cases j <;> simp at hjl ⊢
    subst hj1
    simp only [List.mem_cons, List.not_mem_nil, or_false] at hi
    rcases hi with rfl | rfl <;> norm_num [p0, p1, p2])
  refine ⟨halfModel, _, _, oneTest 0, _, _, μ, v, μ', v', half_make, rfl, rfl, rfl, rfl, hw, hw', he, he',
    sparse_extends ans ans' 2 2, rfl, rfl, rfl, rfl, sparse_distinct, sparse_ties ans' 2, r1, s1, ?_⟩
  rw [r2, s2, p0, p1, p2]
  set x := Real.exp (-1) with hx
  have hx0 : 0 < x := Real.exp_pos _
  have hx1 : x < 1 := by rw [hx]; exact Real.exp_lt_one_iff.mpr (by norm_num)
  have e : ∀ n : Nat, Real.exp (-(n : ℝ)) = x ^ n := fun n => by
    rw [hx, ← Real.exp_nat_mul]; congr 1; ring
  have a1 : Real.exp (-|(-1 : ℝ)|) = x := by rw [abs_neg, abs_one]
  have a2 : Real.exp (-|(3 : ℝ)|) = x ^ 3 := by rw [← e 3]; norm_num
  have a3 : Real.exp (-|(-2 : ℝ)|) = x ^ 2 := by rw [← e 2]; norm_num
  have a4 : Real.exp (-|(-1 : ℝ) - 3|) = x ^ 4 := by rw [← e 4]; norm_num
  have a5 : Real.exp (-|(-1 : ℝ) - -2|) = x := by rw [hx]; norm_num
  rw [a1, a2, a3, a4, a5]
  have hx2 : x ^ 2 < 1 := by nlinarith
  have hd1 : 0 < 1 - (x ^ 4) ^ 2 := by
    have : (x ^ 4) ^ 2 < 1 := by
      rw [← pow_mul]; exact pow_lt_one₀ hx0.le hx1 (by norm_num)
    linarith
  have hd2 : 0 < 1 - x ^ 2 := by linarith
  have q2 : (x ^ 2 + (x ^ 2) ^ 2 - 2 * x * x * x ^ 2) / (1 - x ^ 2) = x ^ 2 := by
    rw [div_eq_iff hd2.ne']; ring
  rw [q2]
  have : x ^ 2 < (x ^ 2 + (x ^ 3) ^ 2 - 2 * x ^ 4 * x * x ^ 3) / (1 - (x ^ 4) ^ 2) := by
    rw [lt_div_iff₀ hd1]
    have : x ^ 2 + (x ^ 3) ^ 2 - 2 * x ^ 4 * x * x ^ 3 - x ^ 2 * (1 - (x ^ 4) ^ 2) = x ^ 6 * (1 - x ^ 2) ^ 2 := by ring
    have h0 : 0 < x ^ 6 * (1 - x ^ 2) ^ 2 := by positivity
    linarith
  linarith

/-- Non-vacuity of `C84_more_information_partial`: the same data with one more neighbour. -/
example (bs : Flt → ℝ → ℝ) : ∃ (w w' : NNWrapper) (μ v μ' v' : Tensor ℝ), w.N = 2 ∧ w'.N = 3 ∧ w.nnCount = 2 ∧ w'.nnCount = 3 ∧
    regressAny bs halfModel w (oneTest 0) w.train ⟨[2], fun _ => 0⟩ = .ok (μ, v) ∧
    regressAny bs halfModel w' (oneTest 0) w'.train ⟨[3], fun _ => 0⟩ = .ok (μ', v') ∧ v'.get [0] ≤ v.get [0] := by
  obtain ⟨ans, hw, he⟩ := sparse_index 2 2
  obtain ⟨ans', hw', he'⟩ := sparse_index 3 3
  obtain ⟨μ, v, μ', v', h1, h2, -, -, h3⟩ := C84_more_information_partial bs halfModel halfModel rfl half_make rfl rfl rfl
    (by show (0:ℝ) ≤ 1; norm_num) rfl 0 0 rfl rfl le_rfl _ _ hw hw' he he' rfl id (sparse_extends ans ans' 2 3)
    (oneTest 0) ⟨[2], fun _ => 0⟩ ⟨[3], fun _ => 0⟩ 1 (fun _ => 1) ⟨1, one_pos, rfl, fun _ => rfl⟩ rfl rfl rfl one_pos two_pos le_rfl le_rfl
    (by norm_num) (.inr ⟨le_rfl, sparse_distinct⟩) (.inl (sparse_ties ans' 3))
  exact ⟨_, _, μ, v, μ', v', rfl, rfl, rfl, rfl, h1, h2, h3 0 one_pos⟩

end MuyGPyS
