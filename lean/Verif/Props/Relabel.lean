import Verif.Spec.Relabel
import Verif.Props.Always
import Verif.Props.ContinuityFails

/-! # C86: the names of the classes do not matter -/

namespace MuyGPyS
open Py Matrix

theorem renamed_mixed {π : Nat → Nat} {labels labels' : Tensor ℝ} {N r m n : Nat} (h : Renamed π labels labels' N r) (hr : 0 < r)
    (hdec : π 0 = 0 ∨ (FirstColumnDecides labels N r ∧ FirstColumnDecides labels' N r)) {I : Tensor Int}
    (hv : ∀ p < m, ∀ j < n, ∃ x : Nat, I.get [p, j] = (x : Int) ∧ x < N) {p : Nat} (hp : p < m) :
    FirstMixed labels' I n p ↔ FirstMixed labels I n p := by
  obtain ⟨⟨hπ, hinj⟩, -, -, hl⟩ := h
  have hlab : ∀ j < n, ∀ c < r, nbrLabel labels' I p j c = nbrLabel labels I p j (π c) := by
    intro j hj c hc
    obtain ⟨x, x1, x2⟩ := hv p hp j hj
    simp only [nbrLabel, x1, Int.toNat_natCast]
    exact hl x x2 c hc
  rcases hdec with h0 | ⟨d, d'⟩
  · unfold FirstMixed
    constructor
    · rintro ⟨j, hj, j', hj', hne⟩
      refine ⟨j, hj, j', hj', ?_⟩
      rwa [hlab j hj 0 hr, hlab j' hj' 0 hr, h0] at hne
    · rintro ⟨j, hj, j', hj', hne⟩
      refine ⟨j, hj, j', hj', ?_⟩
      rwa [hlab j hj 0 hr, hlab j' hj' 0 hr, h0]
  · rw [mixed_iff_not_same hr d' hv hp, mixed_iff_not_same hr d hv hp, not_iff_not]
    constructor
    · intro hs j hj j' hj' c hc
      have hinj' : Function.Injective (fun i : Fin r => (⟨π i, hπ i i.2⟩ : Fin r)) := fun a b hab =>
        Fin.ext (hinj a a.2 b b.2 (Fin.mk.inj hab))
      obtain ⟨i, hi⟩ := (Finite.injective_iff_surjective.mp hinj') ⟨c, hc⟩
      have hic : π i = c := congrArg Fin.val hi
      have := hs j hj j' hj' i i.2
      rwa [hlab j hj i i.2, hlab j' hj' i i.2, hic] at this
    · intro hs j hj j' hj' c hc
      rw [hlab j hj c hc, hlab j' hj' c hc]
      exact hs j hj j' hj' _ (hπ c hc)

/-- **C86**: rename the classes, that is permute the columns of the encoded labels. With two classes, or if the first class keeps
its name, the scores `classify_any` returns are permuted in the same way. Partial: see `C86_names_matter_fails`. -/
theorem C86_renamed_partial (bs : Flt → ℝ → ℝ) (R : Regressor) (hk : R.kernel.make = R.kernel)
    (hsuit : R.kernel.fn.Suits R.kernel.deform.metric) (w : NNWrapper) (hw : w.Exact) (test labels labels' : Tensor ℝ) (m r : Nat)
    (len : Fin w.f → ℝ) (hlen : R.kernel.deform.HasLengths w.f len) (ht : test.shape = [m, w.f])
    (hr : 0 < r) (hrn : r ≠ w.nnCount) (hm : 0 < m) (hn : 0 < w.nnCount) (hkN : w.nnCount ≤ w.N)
    (hν : ∀ b, R.gp.noise.Fits b w.nnCount) (hreg : R.gp.noise.Suffices m w.nnCount (DistinctRows w.train w.N w.f))
    (π : Nat → Nat) (hπ : Renamed π labels labels' w.N r)
    (hdec : π 0 = 0 ∨ (FirstColumnDecides labels w.N r ∧ FirstColumnDecides labels' w.N r)) :
    ∃ P P', classifyAny (fun idx nn => posteriorMeanFromIndices bs R idx nn test w.train labels) w test labels = .ok P ∧
      classifyAny (fun idx nn => posteriorMeanFromIndices bs R idx nn test w.train labels') w test labels' = .ok P' ∧
      P.shape = [m, r] ∧ P'.shape = [m, r] ∧ ∀ p < m, ∀ c < r, P'.get [p, c] = P.get [p, π c] := by
  have hl := hπ.2.1
  have hl' := hπ.2.2.1
  obtain ⟨I, D, h1, h2, h3, h4⟩ := C44_actual bs R hk w hw test labels m r len hlen ht hl hr hrn hm hn hkN hν
  obtain ⟨I', D', g1, g2, g3, g4⟩ := C44_actual bs R hk w hw test labels' m r len hlen ht hl' hr hrn hm hn hkN hν
  rw [h1] at g1
  obtain ⟨rfl, rfl⟩ : I = I' ∧ D = D' := by simpa using g1
  have hregular := nbr_regular bs R hsuit len hlen w.train w.N w.nnCount m I
    (fun i hi => by obtain ⟨l, e1, e2⟩ := h3 i hi; exact ⟨l, e1, e2.nodup, e2.mem⟩) hreg
  obtain ⟨P, p1, p2, p3⟩ := h4 hregular
  obtain ⟨P', q1, q2, q3⟩ := g4 hregular
  refine ⟨P, P', p1, q1, p2, q2, fun p hp c hc => ?_⟩
  have hv := nearest_nat h3
  have hπc := hπ.1.1 c hc
  by_cases hM : FirstMixed labels I w.nnCount p
  · have hM' := (renamed_mixed hπ hr hdec hv hp).mpr hM
    rw [(q3 p hp).2 hM' c hc, (p3 p hp).2 hM (π c) hπc]
    congr 1
    funext j
    obtain ⟨x, x1, x2⟩ := hv p hp j j.2
    unfold nbrTargets
    rw [x1, pointOf_nat]
    simp only [feature, hl, hl']
    exact hπ.2.2.2 x x2 c hc
  · have hM' := fun h => hM ((renamed_mixed hπ hr hdec hv hp).mp h)
    rw [(q3 p hp).1 hM' c hc, (p3 p hp).1 hM (π c) hπc]
    obtain ⟨x, x1, x2⟩ := hv p hp 0 hn
    simp only [nbrLabel, x1, Int.toNat_natCast]
    exact hπ.2.2.2 x x2 c hc

/-- Training points `0` of class 1 and twice `1/10` of class 2 (of four classes, one-hot encoded). -/
noncomputable def clusterTrain : Tensor ℝ := ⟨[3, 1], fun k => if k = 0 then 0 else 1 / 10⟩

noncomputable def clusterLabels : Tensor ℝ := ⟨[3, 4], fun k => if k = 1 ∨ k = 6 ∨ k = 10 then 1 else 0⟩

/-- The same with the names of the classes 0 and 1 exchanged. -/
noncomputable def clusterLabels' : Tensor ℝ := ⟨[3, 4], fun k => if k = 0 ∨ k = 6 ∨ k = 10 then 1 else 0⟩

theorem cluster_renamed : Renamed (Equiv.swap 0 1) clusterLabels clusterLabels' 3 4 := by
  refine ⟨⟨fun i hi => ?_, fun i _ j _ h => (Equiv.swap 0 1).injective h⟩, rfl, rfl, fun i hi c hc => ?_⟩
  · rcases Nat.lt_or_ge i 2 with h | h
    · interval_cases i <;> simp
    · rw [Equiv.swap_apply_of_ne_of_ne (by omega) (by omega)]; exact hi
  · have e : ∀ c : Nat, clusterLabels'.get [i, c] = clusterLabels'.flat (i * 4 + c) ∧ clusterLabels.get [i, c] = clusterLabels.flat (i * 4 + c) :=
      fun c => ⟨Tensor.get2 clusterLabels' rfl _ _, Tensor.get2 clusterLabels rfl _ _⟩
    rw [(e _).1, (e _).2]
    interval_cases i <;> interval_cases c <;> norm_num [clusterLabels, clusterLabels', Equiv.swap_apply_def]

theorem cluster_row (i : Nat) (c : Fin 1) : rowPt clusterTrain 1 i c = if i = 0 then 0 else 1 / 10 := by
  show clusterTrain.get [i, c] = _
  rw [Tensor.get2 clusterTrain rfl]
  simp [clusterTrain]

/-- Kriging weights of three neighbours, the last two of which coincide, with unit noise. -/
theorem kriging_cluster (e : ℝ) (he0 : 0 < e) (he1 : e < 1) (y : Fin 3 → ℝ) :
    Spec.krigingMean !![2, e, e; e, 2, 1; e, 1, 2] ![1, e, e] y =
      (3 - 2 * e ^ 2) / (6 - 2 * e ^ 2) * y 0 + e / (6 - 2 * e ^ 2) * (y 1 + y 2) := by
  set A : Matrix (Fin 3) (Fin 3) ℝ := !![2, e, e; e, 2, 1; e, 1, 2] with hA
  have hd : (0:ℝ) < 6 - 2 * e ^ 2 := by nlinarith
  have hne := hd.ne'
  have hdet : A.det ≠ 0 := by
    rw [hA, Matrix.det_fin_three]
    simp
    intro h
    apply hd.ne'
    linarith
  have hsym : A.transpose = A := by
    rw [hA]; ext i j; fin_cases i <;> fin_cases j <;> rfl
  set x : Fin 3 → ℝ := ![(3 - 2 * e ^ 2) / (6 - 2 * e ^ 2), e / (6 - 2 * e ^ 2), e / (6 - 2 * e ^ 2)] with hx
  have hAx : A *ᵥ x = ![1, e, e] := by
    funext i
    rw [hA, hx]
    have e0 : 2 * ((3 - 2 * e ^ 2) / (6 - 2 * e ^ 2)) + e * (e / (6 - 2 * e ^ 2)) + e * (e / (6 - 2 * e ^ 2)) = 1 := by
      rw [← mul_div_assoc, ← mul_div_assoc, ← add_div, ← add_div, div_eq_one_iff_eq hne]; ring
    have e1 : e * ((3 - 2 * e ^ 2) / (6 - 2 * e ^ 2)) + 2 * (e / (6 - 2 * e ^ 2)) + e / (6 - 2 * e ^ 2) = e := by
      rw [← mul_div_assoc, ← mul_div_assoc, ← add_div, ← add_div, div_eq_iff hne]; ring
    fin_cases i <;> simp [Matrix.mulVec, dotProduct, Fin.sum_univ_three] <;> linarith
  unfold Spec.krigingMean
  rw [← Kriging.swap hsym, ← hAx, Kriging.inv_mulVec_cancel hdet]
  simp [dotProduct, Fin.sum_univ_three, hx]
  ring

/-- **C86, where the code fails**: the names of the classes can decide which class is predicted. Three training points, one of
class 1 and two of class 2 (of four classes), all three neighbours of the test point: `classify_any` returns the class of the nearest
one because none of them is of class 0. After exchanging the names 0 and 1 it predicts the other class. -/
theorem C86_names_matter_fails (bs : Flt → ℝ → ℝ) : ∃ (R : Regressor) (w : NNWrapper) (test labels labels' P P' : Tensor ℝ),
    R.kernel.make = R.kernel ∧ R.kernel.fn.Suits R.kernel.deform.metric ∧ R.gp.noise.Level 1 ∧ w.Exact ∧ test.shape = [1, w.f] ∧
    w.nnCount = 3 ∧ Renamed (Equiv.swap 0 1) labels labels' w.N 4 ∧
    classifyAny (fun idx nn => posteriorMeanFromIndices bs R idx nn test w.train labels) w test labels = .ok P ∧
    classifyAny (fun idx nn => posteriorMeanFromIndices bs R idx nn test w.train labels') w test labels' = .ok P' ∧
    IsFirstMax (fun c => P.get [0, c]) 4 1 ∧ IsFirstMax (fun c => P'.get [0, c]) 4 2 := by
  obtain ⟨answer, hw⟩ := exact_index_exists 3 1 3 clusterTrain rfl (fun x y => |x 0 - y 0|) false
  set w : NNWrapper := ⟨3, 1, clusterTrain, 3, fun x y => |x 0 - y 0|, false, answer⟩ with hwdef
  obtain ⟨I, D, h1, h2, h3, h4⟩ := C44_actual bs lineModel rfl w hw (oneTest 0) clusterLabels 1 4 (fun _ => 1)
    ⟨1, one_pos, rfl, fun _ => rfl⟩ rfl rfl (by norm_num) (by show 4 ≠ 3; norm_num) one_pos (by show 0 < 3; norm_num)
    (by show 3 ≤ 3; norm_num) (fun _ => trivial)
  obtain ⟨I', D', g1, g2, g3, g4⟩ := C44_actual bs lineModel rfl w hw (oneTest 0) clusterLabels' 1 4 (fun _ => 1)
    ⟨1, one_pos, rfl, fun _ => rfl⟩ rfl rfl (by norm_num) (by show 4 ≠ 3; norm_num) one_pos (by show 0 < 3; norm_num)
    (by show 3 ≤ 3; norm_num) (fun _ => trivial)
  rw [h1] at g1
  obtain ⟨rfl, rfl⟩ : I = I' ∧ D = D' := by simpa using g1
  have hregular := nbr_regular bs lineModel rfl (fun _ : Fin 1 => 1) ⟨1, one_pos, rfl, fun _ => rfl⟩ w.train w.N w.nnCount 1 I
    (fun i hi => by obtain ⟨l, e1, e2⟩ := h3 i hi; exact ⟨l, e1, e2.nodup, e2.mem⟩) (.inl one_pos)
  obtain ⟨P, p1, p2, p3⟩ := h4 hregular
  obtain ⟨P', q1, q2, q3⟩ := g4 hregular
  -- the neighbours in order: first the point at 0
  obtain ⟨l, e1, e2⟩ := h3 0 one_pos
  obtain ⟨x, y, z, rfl⟩ : ∃ x y z, l = [x, y, z] := by
    have := e2.length
    have hl3 : l.length = 3 := this
    match l, hl3 with
    | [x, y, z], _ => exact ⟨x, y, z, rfl⟩
  have hsort := e2.sorted
  have hx3 : x < 3 := e2.mem x (by simp)
  have hy3 : y < 3 := e2.mem y (by simp)
  have hz3 : z < 3 := e2.mem z (by simp)
  have hnd := e2.nodup
  have hdist : ∀ i, w.dist (rowPt (oneTest 0) w.f 0) (rowPt w.train w.f i) = if i = 0 then 0 else 1 / 10 := by
    intro i
    show |rowPt (oneTest 0) 1 0 0 - rowPt clusterTrain 1 i 0| = _
    rw [cluster_row, oneTest_row]
    split <;> norm_num
  simp only [hdist] at hsort
  have hx0 : x = 0 := by
    by_contra hne
    simp only [List.nodup_cons, List.mem_cons, List.not_mem_nil, or_false, not_or] at hnd
    have hyz : y = 0 ∨ z = 0 := by omega
    simp only [List.pairwise_cons, List.mem_cons, List.not_mem_nil, or_false, forall_eq_or_imp, forall_eq] at hsort
    rcases hyz with h | h
    · have := hsort.1.1
      rw [if_neg hne, if_pos h] at this; norm_num at this
    · have := hsort.1.2
      rw [if_neg hne, if_pos h] at this; norm_num at this
  subst hx0
  have hy0 : y ≠ 0 := by rintro rfl; simp at hnd
  have hz0 : z ≠ 0 := by rintro rfl; simp at hnd
  have i0 : I.get [0, 0] = ((0 : Nat) : Int) := by
    obtain ⟨a, a1, a2⟩ := rowList_get e1 (j := 0) (by show 0 < 3; norm_num)
    obtain rfl : 0 = a := by simpa using a1
    exact a2
  have i1 : I.get [0, 1] = (y : Int) := by
    obtain ⟨a, a1, a2⟩ := rowList_get e1 (j := 1) (by show 1 < 3; norm_num)
    obtain rfl : y = a := by simpa using a1
    exact a2
  have i2 : I.get [0, 2] = (z : Int) := by
    obtain ⟨a, a1, a2⟩ := rowList_get e1 (j := 2) (by show 2 < 3; norm_num)
    obtain rfl : z = a := by simpa using a1
    exact a2
  have hL : ∀ i c, clusterLabels.get [i, c] = clusterLabels.flat (i * 4 + c) := fun i c => Tensor.get2 clusterLabels rfl _ _
  have hL' : ∀ i c, clusterLabels'.get [i, c] = clusterLabels'.flat (i * 4 + c) := fun i c => Tensor.get2 clusterLabels' rfl _ _
  have hnm : ¬ FirstMixed clusterLabels I w.nnCount 0 := by
    have key : ∀ i < 3, clusterLabels.get [i, 0] = 0 := by
      intro i hi
      rw [hL]
      interval_cases i <;> norm_num [clusterLabels]
    rintro ⟨j, hj, j', hj', hne⟩
    apply hne
    obtain ⟨a, a1, a2⟩ := nearest_nat h3 0 one_pos j hj
    obtain ⟨b, b1, b2⟩ := nearest_nat h3 0 one_pos j' hj'
    simp only [nbrLabel, a1, b1, Int.toNat_natCast]
    rw [key a a2, key b b2]
  have hm' : FirstMixed clusterLabels' I w.nnCount 0 := by
    refine ⟨0, by show 0 < 3; norm_num, 1, by show 1 < 3; norm_num, ?_⟩
    simp only [nbrLabel, i0, i1, Int.toNat_natCast]
    rw [hL', hL']
    interval_cases y <;> first | exact absurd rfl hy0 | norm_num [clusterLabels']
  have hP : ∀ c < 4, P.get [0, c] = clusterLabels.flat (0 * 4 + c) := fun c hc => by
    rw [(p3 0 one_pos).1 hnm c hc]
    simp only [nbrLabel, i0, Int.toNat_natCast]
    exact hL 0 c
  set e := Real.exp (-1 / 200) with he
  have he0 : 0 < e := Real.exp_pos _
  have he1 : e < 1 := by rw [he, Real.exp_lt_one_iff]; norm_num
  have he2 : 199 / 200 ≤ e := by
    have := Real.add_one_le_exp (-1 / 200 : ℝ)
    rw [he]; linarith
  have hpt : ∀ i : Nat, pt clusterTrain 1 (pointOf 3 (i : Int)) 0 = if i = 0 then 0 else 1 / 10 := fun i => by
    rw [pointOf_nat]; exact cluster_row i 0
  have hcov : nbrCov bs lineModel.kernel (fun _ : Fin 1 => 1) clusterTrain 3 3 I 0 + lineModel.gp.noise.mat 3 0 = !![2, e, e; e, 2, 1; e, 1, 2] := by
    show nbrCov bs lineModel.kernel (fun _ : Fin 1 => 1) clusterTrain 3 3 I 0 + (1:ℝ) • 1 = _
    rw [one_smul]
    ext a b
    rw [Matrix.add_apply]
    unfold nbrCov
    rw [line_cov]
    have j0 : pt clusterTrain 1 (pointOf 3 (I.get [0, 0])) 0 = 0 := by rw [i0, hpt]; rfl
    have j1 : pt clusterTrain 1 (pointOf 3 (I.get [0, 1])) 0 = 1 / 10 := by rw [i1, hpt, if_neg hy0]
    have j2 : pt clusterTrain 1 (pointOf 3 (I.get [0, 2])) 0 = 1 / 10 := by rw [i2, hpt, if_neg hz0]
    fin_cases a <;> fin_cases b <;> simp [j0, j1, j2, he] <;> norm_num
  have hcross : nbrCross bs lineModel.kernel (fun _ : Fin 1 => 1) clusterTrain 3 3 I 0 (rowPt (oneTest 0) 1 0) = ![1, e, e] := by
    funext a
    unfold nbrCross
    rw [line_cov, oneTest_row]
    have j0 : pt clusterTrain 1 (pointOf 3 (I.get [0, 0])) 0 = 0 := by rw [i0, hpt]; rfl
    have j1 : pt clusterTrain 1 (pointOf 3 (I.get [0, 1])) 0 = 1 / 10 := by rw [i1, hpt, if_neg hy0]
    have j2 : pt clusterTrain 1 (pointOf 3 (I.get [0, 2])) 0 = 1 / 10 := by rw [i2, hpt, if_neg hz0]
    fin_cases a <;> simp [j0, j1, j2, he] <;> norm_num
  have htar : ∀ c < 4, ∀ (j : Fin 3) (x : Nat), I.get [0, j] = (x : Int) → nbrTargets clusterLabels' 3 3 I 0 c j = clusterLabels'.flat (x * 4 + c) := by
    intro c hc j x hx
    unfold nbrTargets
    rw [hx, pointOf_nat]
    exact hL' x c
  have hP' : ∀ c < 4, P'.get [0, c] = (3 - 2 * e ^ 2) / (6 - 2 * e ^ 2) * clusterLabels'.flat (0 * 4 + c) +
      e / (6 - 2 * e ^ 2) * (clusterLabels'.flat (y * 4 + c) + clusterLabels'.flat (z * 4 + c)) := by
    intro c hc
    rw [(q3 0 one_pos).2 hm' c hc]
    show Spec.krigingMean (nbrCov bs lineModel.kernel (fun _ : Fin 1 => 1) clusterTrain 3 3 I 0 + lineModel.gp.noise.mat 3 0)
      (nbrCross bs lineModel.kernel (fun _ : Fin 1 => 1) clusterTrain 3 3 I 0 (rowPt (oneTest 0) 1 0)) (nbrTargets clusterLabels' 3 3 I 0 c) = _
    rw [hcov, hcross, kriging_cluster e he0 he1, htar c hc 0 0 i0, htar c hc 1 y i1, htar c hc 2 z i2]
  have hd : (0:ℝ) < 6 - 2 * e ^ 2 := by nlinarith
  have s0 : P'.get [0, 0] = (3 - 2 * e ^ 2) / (6 - 2 * e ^ 2) := by
    rw [hP' 0 (by norm_num)]
    interval_cases y <;> interval_cases z <;> first | exact absurd rfl hy0 | exact absurd rfl hz0 | simp [clusterLabels']
  have s1 : P'.get [0, 1] = 0 := by
    rw [hP' 1 (by norm_num)]
    interval_cases y <;> interval_cases z <;> first | exact absurd rfl hy0 | exact absurd rfl hz0 | simp [clusterLabels']
  have s2 : P'.get [0, 2] = 2 * e / (6 - 2 * e ^ 2) := by
    rw [hP' 2 (by norm_num)]
    interval_cases y <;> interval_cases z <;> first | exact absurd rfl hy0 | exact absurd rfl hz0 | (simp [clusterLabels']; ring)
  have s3 : P'.get [0, 3] = 0 := by
    rw [hP' 3 (by norm_num)]
    interval_cases y <;> interval_cases z <;> first | exact absurd rfl hy0 | exact absurd rfl hz0 | simp [clusterLabels']
  have hwin : (3 - 2 * e ^ 2) / (6 - 2 * e ^ 2) < 2 * e / (6 - 2 * e ^ 2) := by
    rw [div_lt_div_iff_of_pos_right hd]; nlinarith
  have hpos : 0 < 2 * e / (6 - 2 * e ^ 2) := by positivity
  refine ⟨lineModel, w, oneTest 0, clusterLabels, clusterLabels', P, P', rfl, rfl, rfl, hw, rfl, rfl, cluster_renamed, p1, q1,
    ⟨by norm_num, fun c hc => ?_, fun c hc => ?_⟩, ⟨by norm_num, fun c hc => ?_, fun c hc => ?_⟩⟩
  · simp only
    rw [hP c hc, hP 1 (by norm_num)]
    interval_cases c <;> norm_num [clusterLabels]
  · simp only
    rw [hP c (by omega), hP 1 (by norm_num)]
    interval_cases c; norm_num [clusterLabels]
  · simp only
    interval_cases c
    · rw [s0, s2]; exact hwin.le
    · rw [s1, s2]; exact hpos.le
    · exact le_rfl
    · rw [s3, s2]; exact hpos.le
  · simp only
    interval_cases c
    · rw [s0, s2]; exact hwin
    · rw [s1, s2]; exact hpos

/-- Non-vacuity of `C86_renamed_partial`: two classes with exchanged names. -/
example (bs : Flt → ℝ → ℝ) : ∃ (w : NNWrapper) (labels labels' P P' : Tensor ℝ), w.Exact ∧ w.N = 3 ∧ w.nnCount = 3 ∧
    Renamed (Equiv.swap 0 1) labels labels' 3 2 ∧ labels.get [0, 0] ≠ labels.get [1, 0] ∧
    classifyAny (fun idx nn => posteriorMeanFromIndices bs lineModel idx nn lineTest w.train labels) w lineTest labels = .ok P ∧
    classifyAny (fun idx nn => posteriorMeanFromIndices bs lineModel idx nn lineTest w.train labels') w lineTest labels' = .ok P' ∧
    P'.get [0, 0] = P.get [0, 1] := by
  obtain ⟨answer, hw⟩ := exact_index_exists 3 1 3 lineTrain rfl (fun x y => |x 0 - y 0|) false
  set labels : Tensor ℝ := ⟨[3, 2], fun k => if k = 0 ∨ k = 3 ∨ k = 5 then 1 else 0⟩ with hlab
  set labels' : Tensor ℝ := ⟨[3, 2], fun k => if k = 1 ∨ k = 2 ∨ k = 4 then 1 else 0⟩ with hlab'
  have hL : ∀ i c, labels.get [i, c] = labels.flat (i * 2 + c) := fun i c => Tensor.get2 labels rfl _ _
  have hL' : ∀ i c, labels'.get [i, c] = labels'.flat (i * 2 + c) := fun i c => Tensor.get2 labels' rfl _ _
  have hren : Renamed (Equiv.swap 0 1) labels labels' 3 2 := by
    refine ⟨⟨fun i hi => ?_, fun i _ j _ h => (Equiv.swap 0 1).injective h⟩, rfl, rfl, fun i hi c hc => ?_⟩
    · interval_cases i <;> simp
    · rw [hL, hL']
      interval_cases i <;> interval_cases c <;> norm_num [hlab, hlab', Equiv.swap_apply_def]
  obtain ⟨P, P', h1, h2, -, -, h3⟩ := C86_renamed_partial bs lineModel rfl rfl _ hw lineTest labels labels' 2 2 (fun _ => 1)
    ⟨1, one_pos, rfl, fun _ => rfl⟩ rfl two_pos (by norm_num) two_pos (by norm_num) le_rfl (fun _ => trivial) (.inl one_pos)
    (Equiv.swap 0 1) hren (.inr ⟨fun i hi k hk h c hc => by
        have hi' : i < 3 := hi
        have hk' : k < 3 := hk
        rw [hL, hL] at h ⊢
        interval_cases i <;> interval_cases k <;> interval_cases c <;> first | rfl | (norm_num [hlab]; done) | (exfalso; revert h; norm_num [hlab]),
      fun i hi k hk h c hc => by
        have hi' : i < 3 := hi
        have hk' : k < 3 := hk
        rw [hL', hL'] at h ⊢
        interval_cases i <;> interval_cases k <;> interval_cases c <;> first | rfl | (norm_num [hlab']; done) | (exfalso; revert h; norm_num [hlab'])⟩)
  refine ⟨_, labels, labels', P, P', hw, rfl, rfl, hren, ?_, h1, h2, ?_⟩
  · rw [hL, hL]; norm_num [hlab]
  · rw [h3 0 two_pos 0 two_pos]; simp

end MuyGPyS
