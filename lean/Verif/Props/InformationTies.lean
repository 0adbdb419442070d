import Verif.Props.InformationWitness

/-! # C84: with equidistant training points more neighbours can increase the reported variance -/

namespace MuyGPyS
open Py Matrix

/-- Kriging variance when all row sums of the covariance agree and all cross-covariances agree. -/
theorem kriging_balanced {n : Nat} (A : Matrix (Fin n) (Fin n) ℝ) (hA : A.det ≠ 0) (s c : ℝ) (hs : s ≠ 0) (hrow : ∀ i, ∑ j, A i j = s)
    (k : Fin n → ℝ) (hk : ∀ i, k i = c) : Spec.krigingVar 1 A k = 1 - n * c ^ 2 / s := by
  have e : A *ᵥ (fun _ => c / s) = k := by
    funext i
    show ∑ j, A i j * (c / s) = k i
    rw [← Finset.sum_mul, hrow, hk]
    field_simp
  have e2 : A⁻¹ *ᵥ k = fun _ => c / s := by rw [← e, Kriging.inv_mulVec_cancel hA]
  unfold Spec.krigingVar
  rw [e2]
  simp only [dotProduct, hk, Finset.sum_const, Finset.card_univ, Fintype.card_fin, nsmul_eq_mul]
  field_simp

/-- Matérn kernel of smoothness 1/2, unit length scale, noise 1, unit scale. -/
noncomputable def noisyHalf : Regressor := ⟨halfModel.kernel, MuyGPS.make (.homoscedastic 1) KernelObj.kout 1⟩

/-- Three training points at `1` and one at `-1`, the latter under the number `o`. -/
def sidesPt (o i : Nat) : ℝ := if i = o then -1 else 1

def sidesTrain (o : Nat) : Tensor ℝ := ⟨[4, 1], sidesPt o⟩

theorem sides_row (o i : Nat) (c : Fin 1) : rowPt (sidesTrain o) 1 i c = sidesPt o i := by
  show (sidesTrain o).get [i, c] = _
  rw [Tensor.get2 (sidesTrain o) rfl]
  have : (c : Nat) = 0 := by omega
  simp [sidesTrain]

theorem sides_abs (o i : Nat) : |sidesPt o i| = 1 := by
  unfold sidesPt; split <;> simp

/-- An exact index that prefers low numbers among equidistant points. -/
noncomputable abbrev sidesIndex (o k : Nat) : NNWrapper :=
  ⟨4, 1, sidesTrain o, k, fun x y => |x 0 - y 0|, false, lowestFirst 4 1 (sidesTrain o) fun x y => |x 0 - y 0|⟩

theorem sides_exact (o k : Nat) : (sidesIndex o k).Exact := lowestFirst_exact 4 1 k (sidesTrain o) rfl _ false

theorem sides_euclidean (o k : Nat) : (sidesIndex o k).Euclidean := by
  refine ⟨Real.sqrt, fun a ha b hb hab => Real.sqrt_lt_sqrt ha hab, fun x y => ?_⟩
  show |x 0 - y 0| = √(∑ c : Fin 1, (x c - y c) ^ 2)
  rw [Fin.sum_univ_one, Real.sqrt_sq_eq_abs]

theorem sides_answer (o k : Nat) : (sidesIndex o k).answer (rowPt (oneTest 0) 1 0) k = (List.range 4).take k := by
  show (List.mergeSort (List.range 4) _).take k = _
  rw [List.mergeSort_of_pairwise]
  refine List.pairwise_of_forall fun a b => ?_
  rw [decide_eq_true_iff]
  show |rowPt (oneTest 0) 1 0 0 - rowPt (sidesTrain o) 1 a 0| ≤ |rowPt (oneTest 0) 1 0 0 - rowPt (sidesTrain o) 1 b 0|
  rw [sides_row, sides_row, oneTest_row, zero_sub, zero_sub, abs_neg, abs_neg, sides_abs, sides_abs]

theorem sides_extends : (sidesIndex 3 3).Extends (sidesIndex 1 2) (Equiv.swap 1 3) := by
  refine ⟨fun i hi => ?_, fun i _ j _ h => (Equiv.swap 1 3).injective h⟩
  have hi : i < 4 := hi
  have key : Equiv.swap 1 3 i < 4 ∧ sidesPt 3 (Equiv.swap 1 3 i) = sidesPt 1 i := by
    interval_cases i
    · rw [Equiv.swap_apply_of_ne_of_ne (by norm_num) (by norm_num)]; norm_num [sidesPt]
    · rw [Equiv.swap_apply_left]; norm_num [sidesPt]
    · rw [Equiv.swap_apply_of_ne_of_ne (by norm_num) (by norm_num)]; norm_num [sidesPt]
    · rw [Equiv.swap_apply_right]; norm_num [sidesPt]
  refine ⟨key.1, ?_⟩
  funext c
  show rowPt (sidesTrain 3) 1 _ c = rowPt (sidesTrain 1) 1 i c
  rw [sides_row, sides_row, key.2]

/-- The variance reported at `0` when the covariances between the neighbours have equal row sums. -/
theorem sides_variance (bs : Flt → ℝ → ℝ) (o k : Nat) (hk0 : 0 < k) (hk : k ≤ 4) (Y : Tensor ℝ) (hY : Y.shape = [4]) (s : ℝ) (hs : s ≠ 0)
    (hrow : ∀ i < k, ∑ j : Fin k, Real.exp (-|sidesPt o i - sidesPt o j|) + 1 = s) :
    ∃ μ v, regressAny bs noisyHalf (sidesIndex o k) (oneTest 0) (sidesTrain o) Y = .ok (μ, v) ∧ v.get [0] = 1 - k * Real.exp (-1) ^ 2 / s := by
  obtain ⟨nn, μ, v, h1, h2, -, h4⟩ := regress_answer bs noisyHalf half_make rfl rfl (sidesIndex o k) (sides_exact o k) (oneTest 0) Y 1
    (fun _ => 1) ⟨1, one_pos, rfl, fun _ => rfl⟩ rfl hY one_pos hk0 hk trivial (.inl one_pos)
  refine ⟨μ, v, h2, ?_⟩
  have e1 := h1 0 one_pos
  rw [show (sidesIndex o k).answer (rowPt (oneTest 0) (sidesIndex o k).f 0) (sidesIndex o k).nnCount = _ from sides_answer o k] at e1
  have hn : ∀ j : Fin k, nn.get [0, j] = ((j : Nat) : Int) := fun j => by
    obtain ⟨x, x1, x2⟩ := rowList_get e1 j.2
    rw [List.getElem?_take_of_lt j.2, List.getElem?_range (lt_of_lt_of_le j.2 hk)] at x1
    rw [x2, Option.some.inj x1]
  have hpt : ∀ j : Fin k, pt (sidesTrain o) 1 (pointOf 4 (nn.get [0, j])) 0 = sidesPt o j := fun j => by
    rw [hn, pointOf_nat]; exact sides_row o j 0
  rw [h4 0 one_pos]
  have hcov : ∀ i j : Fin k, nbrCov bs halfModel.kernel (fun _ : Fin 1 => 1) (sidesTrain o) 4 k nn 0 i j = Real.exp (-|sidesPt o i - sidesPt o j|) :=
    fun i j => by
      unfold nbrCov
      rw [half_cov, hpt, hpt]
  show 1 * Spec.krigingVar 1 (nbrCov bs halfModel.kernel (fun _ : Fin 1 => 1) (sidesTrain o) 4 k nn 0 + (1 : ℝ) • 1)
    (nbrCross bs halfModel.kernel (fun _ : Fin 1 => 1) (sidesTrain o) 4 k nn 0 (rowPt (oneTest 0) 1 0)) = _
  rw [one_mul]
  refine kriging_balanced _ ?_ s (Real.exp (-1)) hs (fun i => ?_) _ (fun i => ?_)
  · have hdef := nbrCov_definite bs halfModel.kernel rfl (fun _ : Fin 1 => 1) (fun _ => one_pos) (sidesTrain o) 4 k nn 0
    exact Kriging.det_ne_zero (Kriging.posdef_of_psd_add hdef.1 one_pos)
  · rw [← hrow i i.2]
    simp only [Matrix.add_apply, Matrix.smul_apply, Matrix.one_apply, hcov, Finset.sum_add_distrib, smul_eq_mul, mul_ite, mul_one, mul_zero,
      Finset.sum_ite_eq, Finset.mem_univ, if_true]
  · unfold nbrCross
    rw [half_cov]
    rw [hpt, oneTest_row, zero_sub, abs_neg, sides_abs]

/-- **C84, where the code fails with ties**: the index promises nothing about the choice between equidistant training points. With
training points `1, -1, 1, 1` and noise 1 (Matérn kernel of smoothness 1/2), the same points presented in another order and three neighbours
instead of two, the variance at `0` grows: two neighbours are chosen on either side, three on one side. -/
theorem C84_ties_fails (bs : Flt → ℝ → ℝ) : ∃ (R : Regressor) (w w' : NNWrapper) (σ : Nat → Nat) (Q Y Y' μ v μ' v' : Tensor ℝ),
    R.kernel.make = R.kernel ∧ R.gp.kout = KernelObj.kout ∧ R.kernel.fn.Suits R.kernel.deform.metric ∧ R.gp.boundScale = 1 ∧
    R.gp.noise.Level 1 ∧ w.Exact ∧ w'.Exact ∧ w.Euclidean ∧ w'.Euclidean ∧ w'.Extends w σ ∧ w.N = 4 ∧ w'.N = 4 ∧ w.nnCount = 2 ∧
    w'.nnCount = 3 ∧
    regressAny bs R w Q w.train Y = .ok (μ, v) ∧ regressAny bs R w' Q w'.train Y' = .ok (μ', v') ∧ v.get [0] < v'.get [0] := by
  have hx : 0 < Real.exp (-2 : ℝ) := Real.exp_pos _
  have hx1 : Real.exp (-2 : ℝ) < 1 / 2 := by
    rw [Real.exp_neg, inv_lt_comm₀ (Real.exp_pos _) (by norm_num)]
    have := Real.add_one_lt_exp (x := 2) (by norm_num)
    norm_num at this ⊢
    linarith
  obtain ⟨μ, v, r1, r2⟩ := sides_variance bs 1 2 two_pos (by norm_num) ⟨[4], fun _ => 0⟩ rfl (2 + Real.exp (-2)) (by positivity) (fun i hi => by
    rw [Fin.sum_univ_two]
    interval_cases i <;> norm_num [sidesPt] <;> ring)
  obtain ⟨μ', v', s1, s2⟩ := sides_variance bs 3 3 (by norm_num) (by norm_num) ⟨[4], fun _ => 0⟩ rfl 4 (by norm_num) (fun i hi => by
    rw [Fin.sum_univ_three]
    interval_cases i <;> norm_num [sidesPt])
  refine ⟨noisyHalf, sidesIndex 1 2, sidesIndex 3 3, Equiv.swap 1 3, oneTest 0, _, _, μ, v, μ', v', half_make, rfl, rfl, rfl, rfl, sides_exact 1 2,
    sides_exact 3 3, sides_euclidean 1 2, sides_euclidean 3 3, sides_extends, rfl, rfl, rfl, rfl, r1, s1, ?_⟩
  rw [r2, s2]
  have hc : Real.exp (-1 : ℝ) ^ 2 = Real.exp (-2) := by rw [← Real.exp_nat_mul]; norm_num
  rw [hc]
  have : (3 : ℕ) * Real.exp (-2) / 4 < (2 : ℕ) * Real.exp (-2) / (2 + Real.exp (-2)) := by
    rw [div_lt_div_iff₀ (by norm_num) (by positivity)]
    push_cast
    nlinarith
  linarith

/-- Non-vacuity of `C84_nested`: the same points in the same order, three neighbours instead of two, ties and all. -/
example (bs : Flt → ℝ → ℝ) (Y : Tensor ℝ) (hY : Y.shape = [4]) : ∃ (μ v μ' v' : Tensor ℝ),
    regressAny bs noisyHalf (sidesIndex 1 2) (oneTest 0) (sidesTrain 1) Y = .ok (μ, v) ∧
    regressAny bs noisyHalf (sidesIndex 1 3) (oneTest 0) (sidesTrain 1) Y = .ok (μ', v') ∧ v'.get [0] ≤ v.get [0] := by
  obtain ⟨μ, v, μ', v', h1, h2, -, -, h3⟩ := C84_nested bs noisyHalf noisyHalf rfl half_make rfl rfl rfl
    (by show (0:ℝ) ≤ 1; norm_num) rfl 1 1 rfl rfl le_rfl (sidesIndex 1 2) (sidesIndex 1 3) (sides_exact 1 2) (sides_exact 1 3) rfl id
    ⟨fun i hi => ⟨hi, rfl⟩, fun i _ j _ h => h⟩ (oneTest 0) Y Y 1 (fun _ => 1) ⟨1, one_pos, rfl, fun _ => rfl⟩ rfl hY hY one_pos two_pos
    (by show 2 ≤ 4; norm_num) (by show 0 < 3; norm_num) (by show 3 ≤ 4; norm_num) (.inl one_pos) (fun p hp x hx => by
      obtain rfl : p = 0 := by omega
      rw [show (sidesIndex 1 2).answer (rowPt (oneTest 0) (sidesIndex 1 2).f 0) (sidesIndex 1 2).nnCount = _ from sides_answer 1 2] at hx
      rw [show (sidesIndex 1 3).answer (rowPt (oneTest 0) (sidesIndex 1 3).f 0) (sidesIndex 1 3).nnCount = _ from sides_answer 1 3]
      have e2 : (List.range 4).take 2 = [0, 1] := rfl
      have e3 : (List.range 4).take 3 = [0, 1, 2] := rfl
      rw [e2] at hx
      rw [e3]
      simp only [id, List.mem_cons, List.not_mem_nil, or_false] at hx ⊢
      omega)
  exact ⟨μ, v, μ', v', h1, h2, h3 0 one_pos⟩

end MuyGPyS
