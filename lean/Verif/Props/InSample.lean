import Verif.Props.Sequential
import Verif.Props.Continuity
import Verif.Props.Leakage
import Verif.Props.FastPipeline

/-!
# C101: the prediction at a training point is the leave-one-out prediction corrected by its own response
-/

namespace MuyGPyS
open Py Matrix

/-- With `A'` the covariance of `k + 1` observations with noise `τ`, of which the first is made at the query point: the prediction from all of them in terms of
the prediction from the others. -/
theorem kriging_own {k : Nat} (K : Matrix (Fin (k + 1)) (Fin (k + 1)) ℝ) (hK : K 0 0 = 1) (τ : ℝ)
    (hA : (K + τ • (1 : Matrix (Fin (k + 1)) (Fin (k + 1)) ℝ)).PosDef) (y : Fin (k + 1) → ℝ) :
    let A : Matrix (Fin k) (Fin k) ℝ := K.submatrix Fin.succ Fin.succ + τ • 1
    let c : Fin k → ℝ := fun j => K 0 j.succ
    let V := Spec.krigingVar 1 A c
    let M := Spec.krigingMean A c fun j => y j.succ
    0 < V + τ ∧ Spec.krigingMean (K + τ • 1) (K 0) y = (τ * M + V * y 0) / (V + τ) ∧
      Spec.krigingVar 1 (K + τ • 1) (K 0) = V * τ / (V + τ) := by
  intro A c V M
  set e : Fin (k + 1) ≃ Fin (k + 1) := finRotate (k + 1) with he
  have e1 : ∀ j : Fin k, e j.castSucc = j.succ := fun j => by
    rw [he, finRotate_succ_apply]
    exact Fin.coeSucc_eq_succ
  have e2 : e (Fin.last k) = 0 := finRotate_last
  obtain ⟨p1, p2⟩ := kriging_perm (K + τ • 1) (K 0) y e
  obtain ⟨u0, u1, u2⟩ := update_weights ((K + τ • 1).submatrix e e) (hA.submatrix e.injective) ((K 0) ∘ e) (y ∘ e)
  have eA : ((K + τ • 1).submatrix e e).submatrix Fin.castSucc Fin.castSucc = A := by
    ext i j
    simp only [submatrix_apply, Matrix.add_apply, Matrix.smul_apply, Matrix.one_apply, e1, A, Fin.succ_inj]
  have ec : (fun i : Fin k => ((K 0) ∘ e) i.castSucc) = c := by
    funext i
    simp only [Function.comp_apply, e1, c]
  have eb : (fun i : Fin k => (K + τ • 1).submatrix e e (Fin.last k) i.castSucc) = c := by
    funext i
    simp only [submatrix_apply, Matrix.add_apply, Matrix.smul_apply, Matrix.one_apply, e1, e2, c, (Fin.succ_ne_zero i).symm, if_false, smul_zero, add_zero]
  have ey : (fun i : Fin k => (y ∘ e) i.castSucc) = fun j => y j.succ := by
    funext i
    simp only [Function.comp_apply, e1]
  have ed : (K + τ • 1).submatrix e e (Fin.last k) (Fin.last k) = 1 + τ := by
    simp only [submatrix_apply, Matrix.add_apply, Matrix.smul_apply, Matrix.one_apply, e2, hK, if_true, smul_eq_mul, mul_one]
  have el : ((K 0) ∘ e) (Fin.last k) = 1 := by rw [Function.comp_apply, e2, hK]
  have eyl : (y ∘ e) (Fin.last k) = y 0 := by rw [Function.comp_apply, e2]
  rw [eA, eb, ed] at u0
  rw [eA, eb, ed, ec, ey, el, eyl] at u1
  rw [eA, eb, ed, ec, el] at u2
  have hV : V = 1 - c ⬝ᵥ (A⁻¹ *ᵥ c) := rfl
  have hs : 1 + τ - c ⬝ᵥ (A⁻¹ *ᵥ c) = V + τ := by rw [hV]; ring
  rw [hs] at u0 u1 u2
  rw [← hV] at u1 u2
  refine ⟨u0, ?_, ?_⟩
  · rw [← p1]
    refine (show Spec.krigingMean _ _ _ = _ from u1).trans ?_
    show M + V / (V + τ) * (y 0 - M) = _
    field_simp
    ring
  · rw [← p2]
    show 1 - (((K 0) ∘ e) ⬝ᵥ (((K + τ • 1).submatrix e e)⁻¹ *ᵥ ((K 0) ∘ e))) = _
    rw [u2, show c ⬝ᵥ (A⁻¹ *ᵥ c) = 1 - V by rw [hV]; ring]
    field_simp
    ring

/-- The first of the `k + 1` training points nearest to a training point is that point itself. -/
theorem answer_self (w : NNWrapper) (hw : w.Exact) (hsep : w.Separated) {x k : Nat} (hx : x < w.N) (hk : k + 1 ≤ w.N) :
    ∃ t, w.answer (rowPt w.train w.f x) (k + 1) = x :: t := by
  have hA := hw.2 (rowPt w.train w.f x) _ hk
  generalize w.answer (rowPt w.train w.f x) (k + 1) = l at hA
  match l, hA with
  | [], hA => exact absurd hA.length (by simp)
  | a :: t, hA =>
    refine ⟨t, ?_⟩
    have ha : a = x := by
      by_contra hne
      have haN := hA.mem a (by simp)
      have hpos := hsep.2 x hx a haN hne
      by_cases hin : x ∈ a :: t
      · have : x ∈ t := by
          rcases List.mem_cons.mp hin with h | h
          · exact absurd h.symm hne
          · exact h
        have := (List.pairwise_cons.mp hA.sorted).1 x this
        simp only [hsep.1] at this
        linarith
      · have := hA.nearest a (by simp) x hx hin
        simp only [hsep.1] at this
        linarith
    rw [ha]

/-- **C101**: predict training points with `k + 1` neighbours (so that each point is its own first neighbour), and leave-one-out with `k`
neighbours. The first prediction is the second one, averaged with the point's own response with weights inversely proportional to the
leave-one-out variance and to the noise variance (both times the scale). So a point's residual in the first is never larger than the
leave-one-out residual, and the variance reported there never larger than the leave-one-out variance and than the noise variance;
without noise the response itself is returned, with variance 0. -/
theorem C101_in_sample (bessel : Flt → ℝ → ℝ) (R : Regressor) (hk : R.kernel.make = R.kernel) (hko : R.gp.kout = KernelObj.kout)
    (hsuit : R.kernel.fn.Suits R.kernel.deform.metric) (hscale : 0 < R.gp.boundScale) (w w' : NNWrapper) (hw : w.Exact) (hsep : w.Separated)
    (hw' : w' = { w with nnCount := w.nnCount + 1 }) (_hk0 : 0 < w.nnCount) (hkN : w.nnCount + 1 ≤ w.N)
    (len : Fin w.f → ℝ) (hlen : R.kernel.deform.HasLengths w.f len) (τ : ℝ) (hτ : R.gp.noise.Level τ) (hτ0 : 0 ≤ τ)
    (batch : List Nat) (hb : batch ≠ []) (hbN : ∀ x ∈ batch, x < w.N) :
    ∃ (points : Tensor ℝ) (nn : Tensor Int) (D : Tensor ℝ), w.train.take (ofNats batch) = .ok points ∧ w.getBatchNns (ofNats batch) = .ok (nn, D) ∧
      ∀ Y : Tensor ℝ, Y.shape = [w.N] → ∃ μ v μ' v',
        regressFromIndices bessel R (ofNats batch) nn w.train w.train Y = .ok (μ, v) ∧ regressAny bessel R w' points w.train Y = .ok (μ', v') ∧
        μ.shape = [batch.length] ∧ v.shape = [batch.length] ∧ μ'.shape = [batch.length] ∧ v'.shape = [batch.length] ∧
        ∀ p x, batch[p]? = some x → 0 < v.get [p] + R.gp.boundScale * τ ∧
          μ'.get [p] = (R.gp.boundScale * τ * μ.get [p] + v.get [p] * Y.get [x]) / (v.get [p] + R.gp.boundScale * τ) ∧
          v'.get [p] = v.get [p] * (R.gp.boundScale * τ) / (v.get [p] + R.gp.boundScale * τ) ∧
          |Y.get [x] - μ'.get [p]| ≤ |Y.get [x] - μ.get [p]| ∧ v'.get [p] ≤ v.get [p] ∧ v'.get [p] ≤ R.gp.boundScale * τ := by
  subst hw'
  have hpos := hasLengths_pos hlen
  have hb0 : 0 < batch.length := List.length_pos_iff.mpr hb
  have hd := separated_distinct hw hsep
  have hsuf : ∀ b n, R.gp.noise.Suffices b n (DistinctRows w.train w.N w.f) := fun b n => (hτ.suffices_iff _ _ _).mpr (by
    rcases hτ0.lt_or_eq with h | h
    · exact .inl h
    · exact .inr ⟨hτ0, hd⟩)
  have hv := ofNats_valid hbN
  obtain ⟨S, s1, s2, s3⟩ := take_mat hw.1 hv
  have s2' : S.shape = [batch.length, w.f] := s2
  have hget : ∀ p x, batch[p]? = some x → pointOf w.N ((ofNats batch).get [p]) = x := by
    intro p x hx
    rw [ofNats_get, pointOf_nat, List.getD_eq_getElem?_getD, hx]
    rfl
  have hsrow : ∀ i < batch.length, rowPt S w.f i = rowPt w.train w.f (pointOf w.N ((ofNats batch).get [i])) := by
    intro i hi
    funext c
    unfold rowPt
    rw [Tensor.get2 S s2', Tensor.get1 (ofNats batch) rfl, s3 i c c.2]
    unfold feature
    rw [hw.1]
  obtain ⟨nn, D, n1, n2, -, n4⟩ := batch_ok w hw (ofNats batch) batch.length rfl hv hb0 hkN
  have hw1 : NNWrapper.Exact { w with nnCount := w.nnCount + 1 } := hw
  obtain ⟨nn', D', q1, q2, -, q4, -⟩ := query_ok { w with nnCount := w.nnCount + 1 } hw1 S batch.length (w.nnCount + 1) s2' hb0 (Nat.succ_pos _) hkN
  -- the neighbours of each point
  have hrows : ∀ p < batch.length, ∃ x t, batch[p]? = some x ∧ x < w.N ∧ (x :: t).Nodup ∧ (∀ y ∈ x :: t, y < w.N) ∧
      rowList nn' (w.nnCount + 1) p = (x :: t).map Int.ofNat ∧ rowList nn w.nnCount p = t.map Int.ofNat := by
    intro p hp
    have hx : batch[p]? = some batch[p] := List.getElem?_eq_getElem hp
    have hxN := hbN _ (List.getElem_mem hp)
    obtain ⟨t, ht⟩ := answer_self w hw hsep hxN hkN
    have hN := hw.2 (rowPt w.train w.f batch[p]) _ hkN
    rw [ht] at hN
    have r1 := q4 p hp
    have r2 := (n4 p hp).1
    simp only at r1
    rw [hsrow p hp, hget p _ hx, ht] at r1
    rw [hget p _ hx, ht] at r2
    exact ⟨_, t, hx, hxN, hN.nodup, hN.mem, r1, r2⟩
  have v1 : AllValid w.N nn := valid_of_rows n2 fun i hi j hj => by
    obtain ⟨x, t, -, -, -, m, -, r⟩ := hrows i hi
    obtain ⟨y, y1, y2⟩ := rowList_get r hj
    exact ⟨y, y2, m y (List.mem_cons_of_mem _ (List.mem_of_getElem? y1))⟩
  have v2 : AllValid w.N nn' := valid_of_rows q2 fun i hi j hj => by
    obtain ⟨x, t, -, -, -, m, r, -⟩ := hrows i hi
    obtain ⟨y, y1, y2⟩ := rowList_get r hj
    exact ⟨y, y2, m y (List.mem_of_getElem? y1)⟩
  have d1 : ∀ p < batch.length, DistinctNeighbours w.train w.N w.f w.nnCount nn p := fun p hp => by
    obtain ⟨x, t, -, -, nd, m, -, r⟩ := hrows p hp
    exact distinct_of_nodup r (List.nodup_cons.mp nd).2 (fun y hy => m y (List.mem_cons_of_mem _ hy)) hd
  have d2 : ∀ p < batch.length, DistinctNeighbours w.train w.N w.f (w.nnCount + 1) nn' p := fun p hp => by
    obtain ⟨x, t, -, -, nd, m, r, -⟩ := hrows p hp
    exact distinct_of_nodup r nd m hd
  have pd1 : ∀ p < batch.length, (nbrCov bessel R.kernel len w.train w.N w.nnCount nn p + R.gp.noise.mat w.nnCount p).PosDef := fun p hp => by
    have h := nbrCov_definite bessel R.kernel hsuit len hpos w.train w.N w.nnCount nn p
    exact Noise.posdef_of_suffices ((hsuf batch.length w.nnCount).mono fun _ => d1 p hp) hp h.1 h.2
  have pd2 : ∀ p < batch.length, (nbrCov bessel R.kernel len w.train w.N (w.nnCount + 1) nn' p + R.gp.noise.mat (w.nnCount + 1) p).PosDef := fun p hp => by
    have h := nbrCov_definite bessel R.kernel hsuit len hpos w.train w.N (w.nnCount + 1) nn' p
    exact Noise.posdef_of_suffices ((hsuf batch.length (w.nnCount + 1)).mono fun _ => d2 p hp) hp h.1 h.2
  refine ⟨S, nn, D, s1, n1, fun Y hY => ?_⟩
  have tt : IsTable w.train w.N w.f := .inl hw.1
  obtain ⟨μ, v, a1, a2, a3, a4⟩ := C54_regress bessel R hk hko w.train w.train Y (ofNats batch) nn w.N w.N w.f batch.length w.nnCount len hlen tt tt hY rfl rfl n2
    hv v1 (hτ.fits _ _) fun p hp => Kriging.det_ne_zero (pd1 p hp)
  obtain ⟨μ', v', b1, b2, b3, b4⟩ := C54_regress bessel R hk hko S w.train Y (arange batch.length) nn' batch.length w.N w.f batch.length (w.nnCount + 1) len hlen
    (.inl s2') tt hY (by rw [s2', hw.1]; rfl) rfl q2 (arange_valid _) v2 (hτ.fits _ _) fun p hp => Kriging.det_ne_zero (pd2 p hp)
  refine ⟨μ, v, μ', v', a1, ?_, a2, a3, b2, b3, fun p x hx => ?_⟩
  · unfold regressAny
    rw [s2']
    have : NNWrapper.getNns { w with nnCount := w.nnCount + 1 } S = .ok (nn', D') := q1
    simp only [this, bind, Except.bind]
    exact b1
  · have hp : p < batch.length := (List.getElem?_eq_some_iff.mp hx).1
    obtain ⟨x', t, hx', hxN, nd, m, r1, r2⟩ := hrows p hp
    obtain rfl : x = x' := Option.some.inj (hx.symm.trans hx')
    have g0 : pointOf w.N (nn'.get [p, 0]) = x := by
      obtain ⟨y, y1, y2⟩ := rowList_get r1 (Nat.succ_pos w.nnCount)
      rw [y2, pointOf_nat]
      exact (Option.some.inj y1).symm
    have gs : ∀ j : Fin w.nnCount, pointOf w.N (nn'.get [p, j.succ]) = pointOf w.N (nn.get [p, j]) := fun j => by
      obtain ⟨y, y1, y2⟩ := rowList_get r1 j.succ.2
      obtain ⟨z, z1, z2⟩ := rowList_get r2 j.2
      rw [y2, z2, pointOf_nat, pointOf_nat]
      have : t[(j : Nat)]? = some y := y1
      exact Option.some.inj (this.symm.trans z1)
    have hq : pt S w.f (pointOf batch.length ((arange batch.length).get [p])) = pt w.train w.f x := by
      rw [arange_get, pointOf_nat, rowPt_pt s2', rowPt_pt hw.1, hsrow p hp, hget p x hx]
    set K := nbrCov bessel R.kernel len w.train w.N (w.nnCount + 1) nn' p with hK
    have k00 : K 0 0 = 1 := covFn_self bessel R.kernel hsuit len _
    have pd := pd2 p hp
    rw [hτ.mat] at pd
    obtain ⟨o0, o1, o2⟩ := kriging_own K k00 τ pd (nbrTargets Y w.N (w.nnCount + 1) nn' p 0)
    have e1 : K.submatrix Fin.succ Fin.succ = nbrCov bessel R.kernel len w.train w.N w.nnCount nn p := by
      ext i j
      simp only [hK, nbrCov, submatrix_apply, gs]
    have e2 : (fun j : Fin w.nnCount => K 0 j.succ) = nbrCross bessel R.kernel len w.train w.N w.nnCount nn p (pt w.train w.f x) := by
      funext j
      simp only [hK, nbrCov, nbrCross, gs]
      rw [show ((0 : Fin (w.nnCount + 1)) : Nat) = 0 from rfl, g0]
    have e3 : (fun j : Fin w.nnCount => nbrTargets Y w.N (w.nnCount + 1) nn' p 0 j.succ) = nbrTargets Y w.N w.nnCount nn p 0 := by
      funext j
      simp only [nbrTargets, gs]
    have e4 : K 0 = nbrCross bessel R.kernel len w.train w.N (w.nnCount + 1) nn' p (pt w.train w.f x) := by
      funext j
      simp only [hK, nbrCov, nbrCross]
      rw [show ((0 : Fin (w.nnCount + 1)) : Nat) = 0 from rfl, g0]
    have e5 : nbrTargets Y w.N (w.nnCount + 1) nn' p 0 0 = Y.get [x] := by
      simp only [nbrTargets]
      rw [show ((0 : Fin (w.nnCount + 1)) : Nat) = 0 from rfl, g0]
      unfold feature
      rw [hY]
    have f1 := a4 p hp
    have f2 := b4 p hp
    rw [hget p x hx, hτ.mat] at f1
    rw [hq, hτ.mat, ← e4] at f2
    have hV := (nbr_variance bessel R.kernel hsuit len hpos w.train w.N w.nnCount nn p batch.length hp (pt w.train w.f x) R.gp.noise
      ((hsuf batch.length w.nnCount).mono fun _ => d1 p hp)).1
    rw [hτ.mat] at hV
    simp only [e1, e2, e3, e5] at o0 o1 o2
    rw [f2.1, f2.2, f1.1, f1.2, ← hK, o1, o2]
    set V := Spec.krigingVar 1 (nbrCov bessel R.kernel len w.train w.N w.nnCount nn p + τ • 1) (nbrCross bessel R.kernel len w.train w.N w.nnCount nn p (pt w.train w.f x))
    set M := Spec.krigingMean (nbrCov bessel R.kernel len w.train w.N w.nnCount nn p + τ • 1) (nbrCross bessel R.kernel len w.train w.N w.nnCount nn p (pt w.train w.f x))
      (nbrTargets Y w.N w.nnCount nn p 0)
    set s := R.gp.boundScale
    set y := Y.get [x]
    have hs : 0 < s * V + s * τ := by rw [← mul_add]; exact mul_pos hscale o0
    refine ⟨hs, by field_simp, by field_simp, ?_, ?_, ?_⟩
    · have : y - (τ * M + V * y) / (V + τ) = τ / (V + τ) * (y - M) := by field_simp; ring
      rw [this, abs_mul, abs_of_nonneg (div_nonneg hτ0 o0.le)]
      exact mul_le_of_le_one_left (abs_nonneg _) ((div_le_one o0).mpr (by linarith))
    · refine mul_le_mul_of_nonneg_left ?_ hscale.le
      rw [div_le_iff₀ o0]
      nlinarith
    · refine mul_le_mul_of_nonneg_left ?_ hscale.le
      rw [div_le_iff₀ o0]
      nlinarith

/-- Non-vacuity: training points `0`, `1`, `3`, noise 1, the first and the last predicted from all three points and, leave-one-out, from the two others. -/
example (bs : Flt → ℝ → ℝ) : ∃ (w : NNWrapper) (points : Tensor ℝ) (nn : Tensor Int) (D : Tensor ℝ) (μ v μ' v' : Tensor ℝ), w.Exact ∧ w.train = lineTrain ∧ w.nnCount = 2 ∧
    w.train.take (ofNats [0, 2]) = .ok points ∧ w.getBatchNns (ofNats [0, 2]) = .ok (nn, D) ∧
    regressFromIndices bs lineModel (ofNats [0, 2]) nn w.train w.train lineTargets = .ok (μ, v) ∧
    regressAny bs lineModel { w with nnCount := 3 } points w.train lineTargets = .ok (μ', v') ∧
    μ'.get [1] = μ.get [1] / (v.get [1] + 1) := by
  obtain ⟨answer, hw⟩ := line_exact
  obtain ⟨points, nn, D, h1, h2, h3⟩ := C101_in_sample bs lineModel rfl rfl rfl one_pos _ _ hw (line_separated answer) rfl two_pos (by norm_num) (fun _ => 1)
    ⟨1, one_pos, rfl, fun _ => rfl⟩ 1 rfl zero_le_one [0, 2] (by simp) (fun x hx => by show x < 3; fin_cases hx <;> norm_num)
  obtain ⟨μ, v, μ', v', a1, a2, -, -, -, -, a3⟩ := h3 lineTargets rfl
  refine ⟨_, points, nn, D, μ, v, μ', v', hw, rfl, rfl, h1, h2, a1, a2, ?_⟩
  have h := (a3 1 2 rfl).2.1
  rw [h, show lineModel.gp.boundScale = 1 from rfl, show lineTargets.get [2] = 0 by simp [lineTargets, Tensor.get, Tensor.ravel]]
  simp

end MuyGPyS
