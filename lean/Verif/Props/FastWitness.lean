import Verif.Props.FastWorkflow

/-! # C32: the end-to-end fast workflow does not compute the kriging mean (witness) -/

namespace MuyGPyS
open Py Matrix

/-- Three training points `0, 1, 3` on a line. -/
def lineTrain : Tensor ℝ := ⟨[3, 1], fun k => if k = 2 then 3 else (k : ℝ)⟩

/-- Their responses `0, 1, 0`. -/
def lineTargets : Tensor ℝ := ⟨[3], fun k => if k = 1 then 1 else 0⟩

/-- Two test points, both at `0`. -/
def lineTest : Tensor ℝ := ⟨[2, 1], fun _ => 0⟩

/-- RBF on squared distances, fixed unit length scale, unit noise. -/
noncomputable def lineModel : Regressor :=
  ⟨⟨.isotropy .F2 ⟨Flt.fin 1, Flt.fin 0, Flt.fin 0, true⟩, none, .rbf⟩, MuyGPS.make (.homoscedastic 1) KernelObj.kout 1⟩

theorem line_cov (b : Flt → ℝ → ℝ) (x y : Fin 1 → ℝ) :
    lineModel.kernel.covFn b (fun _ => 1) x y = Real.exp (-(x 0 - y 0) ^ 2 / 2) := by
  unfold KernelObj.covFn lineModel
  simp only [KFn.value, Deform.metric]
  rw [distOf_F2]
  simp

theorem rowList_two {α : Type} (t : Tensor α) (i : Nat) : rowList t 2 i = [t.get [i, 0], t.get [i, 1]] := rfl

theorem kriging_two (a u v s t : ℝ) (h : 4 - a ^ 2 ≠ 0) :
    Spec.krigingMean !![2, a; a, 2] ![u, v] ![s, t] =
      (u * (2 * s - a * t) + v * (2 * t - a * s)) / (4 - a ^ 2) := by
  unfold Spec.krigingMean
  rw [Matrix.inv_def, det_fin_two, adjugate_fin_two]
  simp [Matrix.mulVec, dotProduct, Fin.sum_univ_two]
  have : 2 * 2 - a * a = 4 - a ^ 2 := by ring
  rw [this]
  field_simp
  ring

theorem line_mat (b : Flt → ℝ → ℝ) (U : Tensor Int) (p : Nat) :
    nbrCov b lineModel.kernel (fun _ : Fin 1 => 1) lineTrain 3 2 U p + 1 =
      let a := Real.exp (-(pt lineTrain 1 (pointOf 3 (U.get [p, 0])) 0 - pt lineTrain 1 (pointOf 3 (U.get [p, 1])) 0) ^ 2 / 2)
      !![2, a; a, 2] := by
  set a := Real.exp (-(pt lineTrain 1 (pointOf 3 (U.get [p, 0])) 0 - pt lineTrain 1 (pointOf 3 (U.get [p, 1])) 0) ^ 2 / 2)
  show _ = !![2, a; a, 2]
  ext i j
  rw [Matrix.add_apply]
  unfold nbrCov
  rw [line_cov]
  fin_cases i <;> fin_cases j
  · norm_num
  · simp [a]
  · simp only [Fin.mk_one, Fin.isValue, Fin.zero_eta, ne_eq, one_ne_zero, not_false_eq_true,
      one_apply_ne, add_zero, of_apply, cons_val', cons_val_zero, cons_val_fin_one, cons_val_one, a]
    congr 2
    ring
  · norm_num

/-- C32 is false of the end-to-end fast workflow: with training points `0, 1, 3`, two neighbours and
any exact index, the prediction at the training point `0` is `1 / (2 + e)` instead of the kriging
mean `e / (4 - e²)` of its neighbourhood `{0, 1}`, with `e = exp (-1/2)`. -/
theorem C32_workflow_fails (b : Flt → ℝ → ℝ) (answer : (Fin 1 → ℝ) → Nat → List Nat) :
    let w : NNWrapper := ⟨3, 1, lineTrain, 2, fun x y => |x 0 - y 0|, false, answer⟩
    w.Exact → ∃ (μ coeffs : Tensor ℝ) (U : Tensor Int),
      fastPosteriorMeanAny b lineModel w lineTest lineTrain lineTargets = .ok (μ, coeffs) ∧
      U.shape = [3, 2] ∧ rowList U 2 0 = [0, 1] ∧
      Spec.krigingMean (nbrCov b lineModel.kernel (fun _ : Fin 1 => 1) lineTrain 3 2 U 0 + 1)
        (nbrCross b lineModel.kernel (fun _ : Fin 1 => 1) lineTrain 3 2 U 0 (rowPt lineTest 1 0))
        (nbrTargets lineTargets 3 2 U 0 0) = Real.exp (-1 / 2) / (4 - Real.exp (-1 / 2) ^ 2) ∧
      μ.get [0] = 1 / (2 + Real.exp (-1 / 2)) ∧
      μ.get [0] ≠ Real.exp (-1 / 2) / (4 - Real.exp (-1 / 2) ^ 2) := by
  intro w hw
  set e := Real.exp (-1 / 2) with he
  have he0 : 0 < e := Real.exp_pos _
  have he1 : e < 1 := by rw [he, Real.exp_lt_one_iff]; norm_num
  have hr0 : rowPt lineTrain 1 0 0 = 0 := by simp [rowPt, lineTrain, Tensor.get, Tensor.ravel]
  have hr1 : rowPt lineTrain 1 1 0 = 1 := by simp [rowPt, lineTrain, Tensor.get, Tensor.ravel]
  have hr2 : rowPt lineTrain 1 2 0 = 3 := by simp [rowPt, lineTrain, Tensor.get, Tensor.ravel]
  have hsep : ∀ i < w.N, ∀ j < w.N, j ≠ i → 0 < w.dist (rowPt w.train w.f i) (rowPt w.train w.f j) := by
    intro i hi j hj hji
    show 0 < |rowPt lineTrain 1 i 0 - rowPt lineTrain 1 j 0|
    have hi' : i < 3 := hi
    have hj' : j < 3 := hj
    interval_cases i <;> interval_cases j <;> first | exact absurd rfl hji | (simp only [hr0, hr1, hr2]; norm_num)
  have hlen : lineModel.kernel.deform.HasLengths w.f (fun _ => 1) := ⟨1, one_pos, rfl, fun _ => rfl⟩
  obtain ⟨nn, U, V, I, D, D', h1, u1, v1, i1, hmain⟩ := C32_workflow_actual b lineModel rfl w hw lineTest lineTargets 2
    (fun _ => 1) hlen rfl rfl (by norm_num) (le_refl 2) (le_refl 3) trivial
  obtain ⟨nn', D'', U', h1', u1', u2, u3⟩ := C32_nearest_first w hw (by show 0 < 2; norm_num) (le_refl 3)
    (fun x => by simp [w]) hsep
  obtain rfl : nn = nn' := by rw [h1] at h1'; exact (Prod.mk.inj (Except.ok.inj h1')).1
  obtain rfl : U = U' := by rw [u1] at u1'; exact Except.ok.inj u1'
  obtain ⟨U', V', u1', v1', v2, v3⟩ := C32_double_update_repeats nn 3 2 (le_refl 2) (by
    obtain ⟨nn', D, a1, a2, _⟩ := C41_batch_always w hw (arange w.N) w.N rfl (arange_valid _) (by show 0 < 3; omega)
      (le_refl 3)
    rw [h1] at a1
    rw [(Prod.mk.inj (Except.ok.inj a1)).1]; exact a2)
  obtain rfl : U = U' := by rw [u1] at u1'; exact Except.ok.inj u1'
  obtain rfl : V = V' := by rw [v1] at v1'; exact Except.ok.inj v1'
  have hdet : ∀ p < w.N, (nbrCov b lineModel.kernel (fun _ : Fin w.f => 1) w.train w.N w.nnCount U p +
      lineModel.gp.noise.mat w.nnCount p).det ≠ 0 := by
    intro p hp
    show (nbrCov b lineModel.kernel (fun _ : Fin 1 => 1) lineTrain 3 2 U p + (1:ℝ) • (1 : Matrix (Fin 2) (Fin 2) ℝ)).det ≠ 0
    rw [one_smul, line_mat, det_fin_two_of]
    set t : ℝ := -(pt lineTrain 1 (pointOf 3 (U.get [p, 0])) 0 - pt lineTrain 1 (pointOf 3 (U.get [p, 1])) 0) ^ 2 / 2
    have ht : t ≤ 0 := by
      have := sq_nonneg (pt lineTrain 1 (pointOf 3 (U.get [p, 0])) 0 - pt lineTrain 1 (pointOf 3 (U.get [p, 1])) 0)
      simp only [t]; linarith
    have h1 := Real.exp_le_one_iff.mpr ht
    have h0 := Real.exp_pos t
    nlinarith
  obtain ⟨μ, co, m1, m2, m3⟩ := hmain hdet
  have hU0 : rowList U 2 0 = [0, 1] := by
    obtain ⟨l, l1, l2, l3⟩ := u3 0 (by show 0 < 3; omega)
    have hlen := l3.length
    obtain ⟨x, rfl⟩ : ∃ x, l = [x] := List.length_eq_one_iff.mp hlen
    have hx := l3.mem x (by simp)
    have hx3 : x < 3 := hx.1
    have hx0 : x ≠ 0 := hx.2
    have hn := l3.nearest x (by simp) 1 ⟨by show 1 < 3; omega, by omega⟩
    have : x = 1 := by
      by_contra hne
      have hx2 : x = 2 := by omega
      subst hx2
      have h := hn (by simp)
      change |rowPt lineTrain 1 0 0 - rowPt lineTrain 1 2 0| ≤ |rowPt lineTrain 1 0 0 - rowPt lineTrain 1 1 0| at h
      rw [hr0, hr1, hr2] at h
      norm_num at h
    subst this
    exact l1
  have hV0 : rowList V 2 0 = [0, 0] := by
    rw [(v3 0 (by omega)).2]
    rfl
  have hI : I.get [0, 0] = 0 := by
    obtain ⟨I', E, j1, j2, j3, j4, j5⟩ := C41_plain w hw lineTest 2 rfl (by omega) (by show 0 < 2; omega) (by show 2 ≤ 3; omega)
    obtain rfl : I = I' := by rw [i1] at j1; exact (Prod.mk.inj (Except.ok.inj j1)).1
    obtain ⟨l, l1, l2⟩ := j4 0 (by omega)
    obtain ⟨x, y, rfl⟩ : ∃ x y, l = [x, y] := List.length_eq_two.mp l2.length
    have e0 : I.get [0, 0] = (x : Int) := by
      have := congrArg (fun l => l[0]?) l1
      simpa [rowList, w] using this
    have hx3 : x < 3 := l2.mem x (by simp)
    have hz : rowPt lineTest 1 0 0 = 0 := rfl
    have key : |rowPt lineTrain 1 x 0| ≤ 0 := by
      have hself : |rowPt lineTest 1 0 0 - rowPt lineTrain 1 0 0| = 0 := by rw [hz, hr0]; simp
      have : |rowPt lineTest 1 0 0 - rowPt lineTrain 1 x 0| ≤ |rowPt lineTest 1 0 0 - rowPt lineTrain 1 0 0| := by
        by_cases h0 : (0 : Nat) ∈ [x, y]
        · rcases List.mem_cons.mp h0 with rfl | h0
          · exact le_rfl
          · have hy : 0 = y := by simpa using h0
            subst hy
            have := l2.sorted
            exact (List.pairwise_cons.mp this).1 0 (by simp)
        · exact l2.nearest x (by simp) 0 (by show 0 < 3; omega) h0
      rw [hself, hz, zero_sub, abs_neg] at this
      exact this
    rw [e0]
    interval_cases x
    · rfl
    · rw [hr1] at key; norm_num at key
    · rw [hr2] at key; norm_num at key
  have U00 : U.get [0, 0] = 0 := by rw [rowList_two] at hU0; exact (List.cons.inj hU0).1
  have U01 : U.get [0, 1] = 1 := by rw [rowList_two] at hU0; exact (List.cons.inj (List.cons.inj hU0).2).1
  have V00 : V.get [0, 0] = 0 := by rw [rowList_two] at hV0; exact (List.cons.inj hV0).1
  have V01 : V.get [0, 1] = 0 := by rw [rowList_two] at hV0; exact (List.cons.inj (List.cons.inj hV0).2).1
  have p0 : pointOf 3 0 = 0 := rfl
  have p1 : pointOf 3 1 = 1 := rfl
  have t0 : pt lineTrain 1 0 0 = 0 := hr0
  have t1 : pt lineTrain 1 1 0 = 1 := hr1
  have q0 : rowPt lineTest 1 0 0 = 0 := rfl
  have hmat : nbrCov b lineModel.kernel (fun _ : Fin 1 => 1) lineTrain 3 2 U 0 + 1 = !![2, e; e, 2] := by
    rw [line_mat, U00, U01, p0, p1, t0, t1]
    norm_num [he]
  have hy : nbrTargets lineTargets 3 2 U 0 0 = ![0, 1] := by
    funext j
    fin_cases j
    · show feature lineTargets (pointOf 3 (U.get [0, 0])) 0 = 0
      rw [U00, p0]; simp [feature, lineTargets, Tensor.get, Tensor.ravel]
    · show feature lineTargets (pointOf 3 (U.get [0, 1])) 0 = 1
      rw [U01, p1]; simp [feature, lineTargets, Tensor.get, Tensor.ravel]
  have hcU : nbrCross b lineModel.kernel (fun _ : Fin 1 => 1) lineTrain 3 2 U 0 (rowPt lineTest 1 0) = ![1, e] := by
    funext j
    unfold nbrCross
    rw [line_cov, q0]
    fin_cases j
    · simp [U00, p0, t0]
    · simp [U01, p1, t1, he]
  have hcV : nbrCross b lineModel.kernel (fun _ : Fin 1 => 1) lineTrain 3 2 V 0 (rowPt lineTest 1 0) = ![1, 1] := by
    funext j
    unfold nbrCross
    rw [line_cov, q0]
    fin_cases j
    · simp [V00, p0, t0]
    · simp [V01, p0, t0]
  have h4 : 4 - e ^ 2 ≠ 0 := by nlinarith
  have hμ : μ.get [0] = 1 / (2 + e) := by
    have := m3 0 (by omega)
    simp only [hI] at this
    have p0' : pointOf w.N 0 = 0 := rfl
    rw [p0'] at this
    change μ.get [0] = Spec.krigingMean (nbrCov b lineModel.kernel (fun _ : Fin 1 => 1) lineTrain 3 2 U 0 + (1 : ℝ) • 1)
      (nbrCross b lineModel.kernel (fun _ : Fin 1 => 1) lineTrain 3 2 V 0 (rowPt lineTest 1 0))
      (nbrTargets lineTargets 3 2 U 0 0) at this
    rw [this, one_smul, hmat, hcV, hy, kriging_two _ _ _ _ _ h4]
    have : 4 - e ^ 2 = (2 - e) * (2 + e) := by ring
    rw [div_eq_div_iff h4 (by linarith)]
    ring
  refine ⟨μ, co, U, m1, u2, hU0, ?_, hμ, ?_⟩
  · rw [hmat, hcU, hy, kriging_two _ _ _ _ _ h4]
    congr 1
    ring
  · rw [hμ]
    intro h
    rw [div_eq_div_iff (by linarith) h4] at h
    nlinarith

/-- The index of the witness exists. -/
example : ∃ answer, NNWrapper.Exact ⟨3, 1, lineTrain, 2, fun x y => |x 0 - y 0|, false, answer⟩ :=
  exact_index_exists 3 1 2 lineTrain rfl _ false

theorem line_det (b : Flt → ℝ → ℝ) (U : Tensor Int) (p : Nat) :
    (nbrCov b lineModel.kernel (fun _ : Fin 1 => 1) lineTrain 3 2 U p + lineModel.gp.noise.mat 2 p).det ≠ 0 := by
  show (nbrCov b lineModel.kernel (fun _ : Fin 1 => 1) lineTrain 3 2 U p + (1:ℝ) • (1 : Matrix (Fin 2) (Fin 2) ℝ)).det ≠ 0
  rw [one_smul, line_mat, det_fin_two_of]
  set t : ℝ := -(pt lineTrain 1 (pointOf 3 (U.get [p, 0])) 0 - pt lineTrain 1 (pointOf 3 (U.get [p, 1])) 0) ^ 2 / 2
  have ht : t ≤ 0 := by
    have := sq_nonneg (pt lineTrain 1 (pointOf 3 (U.get [p, 0])) 0 - pt lineTrain 1 (pointOf 3 (U.get [p, 1])) 0)
    simp only [t]; linarith
  have h1 := Real.exp_le_one_iff.mpr ht
  have h0 := Real.exp_pos t
  nlinarith

/-- Non-vacuity of C54 (`C54_regress`, `C54_regress_any`): the line model with any neighbour rows. -/
example (b : Flt → ℝ → ℝ) : lineModel.kernel.make = lineModel.kernel ∧ lineModel.gp.kout = KernelObj.kout ∧
    lineModel.kernel.deform.HasLengths 1 (fun _ => 1) ∧ IsTable lineTrain 3 1 ∧ IsTable lineTest 2 1 ∧
    lineModel.gp.noise.Fits 2 2 ∧
    (∀ nn : Tensor Int, ∀ p < 2,
      (nbrCov b lineModel.kernel (fun _ : Fin 1 => 1) lineTrain 3 2 nn p + lineModel.gp.noise.mat 2 p).det ≠ 0) ∧
    ∃ answer, NNWrapper.Exact ⟨3, 1, lineTrain, 2, fun x y => |x 0 - y 0|, false, answer⟩ :=
  ⟨rfl, rfl, ⟨1, one_pos, rfl, fun _ => rfl⟩, .inl rfl, .inl rfl, trivial, fun nn p _ => line_det b nn p,
    exact_index_exists 3 1 2 lineTrain rfl _ false⟩

end MuyGPyS
