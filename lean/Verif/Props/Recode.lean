import Verif.Spec.Recode
import Verif.Props.Relabel
import Verif.Props.InformationTies

/-! # C109: the numbers the classes are written with; C110: the origin of the responses -/

namespace MuyGPyS
open Py Matrix

/-- A prediction from responses written with other numbers. -/
theorem kriging_affine {n : Nat} (A : Matrix (Fin n) (Fin n) ℝ) (k y : Fin n → ℝ) (a b : ℝ) :
    Spec.krigingMean A k (fun j => a * y j + b) = a * Spec.krigingMean A k y + b * Spec.krigingMean A k (fun _ => 1) := by
  have e : (fun j => a * y j + b) = a • y + b • (fun _ => (1 : ℝ)) := by
    funext j; simp
  unfold Spec.krigingMean
  rw [e, mulVec_add, mulVec_smul, mulVec_smul, dotProduct_add, dotProduct_smul, dotProduct_smul, smul_eq_mul, smul_eq_mul]

theorem firstMax_affine {s s' : Nat → ℝ} {r c : Nat} {a β : ℝ} (ha : 0 < a) (h : ∀ k < r, s' k = a * s k + β) :
    IsFirstMax s' r c ↔ IsFirstMax s r c := by
  unfold IsFirstMax
  refine and_congr_right fun hc => and_congr ?_ ?_
  · refine forall₂_congr fun k hk => ?_
    rw [h k hk, h c hc, add_le_add_iff_right, mul_le_mul_iff_right₀ ha]
  · refine forall₂_congr fun k hk => ?_
    rw [h k (hk.trans hc), h c hc, add_lt_add_iff_right, mul_lt_mul_iff_right₀ ha]

theorem recoded_mixed {a b : ℝ} (ha : a ≠ 0) {labels labels' : Tensor ℝ} {N r m n : Nat} (h : Recoded a b labels labels' N r) (hr : 0 < r)
    {I : Tensor Int} (hv : ∀ p < m, ∀ j < n, ∃ x : Nat, I.get [p, j] = (x : Int) ∧ x < N) {p : Nat} (hp : p < m) :
    FirstMixed labels' I n p ↔ FirstMixed labels I n p := by
  have hlab : ∀ j < n, nbrLabel labels' I p j 0 = a * nbrLabel labels I p j 0 + b := by
    intro j hj
    obtain ⟨x, x1, x2⟩ := hv p hp j hj
    simp only [nbrLabel, x1, Int.toNat_natCast]
    exact h.2.2 x x2 0 hr
  have hne : ∀ j < n, ∀ j' < n, (nbrLabel labels' I p j 0 ≠ nbrLabel labels' I p j' 0 ↔ nbrLabel labels I p j 0 ≠ nbrLabel labels I p j' 0) :=
    fun j hj j' hj' => by
      rw [hlab j hj, hlab j' hj', not_iff_not, add_left_inj, mul_right_inj' ha]
  unfold FirstMixed
  constructor
  · rintro ⟨j, hj, j', hj', h⟩
    exact ⟨j, hj, j', hj', (hne j hj j' hj').1 h⟩
  · rintro ⟨j, hj, j', hj', h⟩
    exact ⟨j, hj, j', hj', (hne j hj j' hj').2 h⟩

/-- **C109**: the numbers the classes are written with do not matter to a classifier with one model for all classes. With `a * y + b`, `a > 0`, in
place of every label `y`, all scores of a test point are multiplied by `a` and changed by the same amount, so that the same class is predicted at
every test point. Partial: false with one model per class (`C109_one_model_per_class_fails`). -/
theorem C109_one_model_partial (bs : Flt → ℝ → ℝ) (R : Regressor) (hk : R.kernel.make = R.kernel)
    (hsuit : R.kernel.fn.Suits R.kernel.deform.metric) (w : NNWrapper) (hw : w.Exact) (test labels labels' : Tensor ℝ) (m r : Nat)
    (len : Fin w.f → ℝ) (hlen : R.kernel.deform.HasLengths w.f len) (ht : test.shape = [m, w.f])
    (hr : 0 < r) (hrn : r ≠ w.nnCount) (hm : 0 < m) (hn : 0 < w.nnCount) (hkN : w.nnCount ≤ w.N)
    (hν : ∀ b, R.gp.noise.Fits b w.nnCount) (hreg : R.gp.noise.Suffices m w.nnCount (DistinctRows w.train w.N w.f))
    (a b : ℝ) (ha : 0 < a) (hab : Recoded a b labels labels' w.N r) :
    ∃ P P', classifyAny (fun idx nn => posteriorMeanFromIndices bs R idx nn test w.train labels) w test labels = .ok P ∧
      classifyAny (fun idx nn => posteriorMeanFromIndices bs R idx nn test w.train labels') w test labels' = .ok P' ∧
      P.shape = [m, r] ∧ P'.shape = [m, r] ∧ ∀ p < m,
        (∃ β, ∀ c < r, P'.get [p, c] = a * P.get [p, c] + β) ∧
        ∀ c, IsFirstMax (fun c => P'.get [p, c]) r c ↔ IsFirstMax (fun c => P.get [p, c]) r c := by
  have hl := hab.1
  have hl' := hab.2.1
  obtain ⟨I, D, h1, h2, h3, h4⟩ := C44_actual bs R hk w hw test labels m r len hlen ht hl hr hrn hm hn hkN hν
  obtain ⟨I', D', g1, g2, g3, g4⟩ := C44_actual bs R hk w hw test labels' m r len hlen ht hl' hr hrn hm hn hkN hν
  rw [h1] at g1
  obtain ⟨rfl, rfl⟩ : I = I' ∧ D = D' := by simpa using g1
  have hregular := nbr_regular bs R hsuit len hlen w.train w.N w.nnCount m I
    (fun i hi => by obtain ⟨l, e1, e2⟩ := h3 i hi; exact ⟨l, e1, e2.nodup, e2.mem⟩) hreg
  obtain ⟨P, p1, p2, p3⟩ := h4 hregular
  obtain ⟨P', q1, q2, q3⟩ := g4 hregular
  refine ⟨P, P', p1, q1, p2, q2, fun p hp => ?_⟩
  have hv := nearest_nat h3
  have key : ∃ β, ∀ c < r, P'.get [p, c] = a * P.get [p, c] + β := by
    by_cases hM : FirstMixed labels I w.nnCount p
    · have hM' := (recoded_mixed ha.ne' hab hr hv hp).mpr hM
      refine ⟨b * Spec.krigingMean (nbrCov bs R.kernel len w.train w.N w.nnCount I p + R.gp.noise.mat w.nnCount p)
        (nbrCross bs R.kernel len w.train w.N w.nnCount I p (rowPt test w.f p)) (fun _ => 1), fun c hc => ?_⟩
      rw [(q3 p hp).2 hM' c hc, (p3 p hp).2 hM c hc, ← kriging_affine]
      congr 1
      funext j
      obtain ⟨x, x1, x2⟩ := hv p hp j j.2
      unfold nbrTargets
      rw [x1, pointOf_nat]
      simp only [feature, hl, hl']
      exact hab.2.2 x x2 c hc
    · have hM' := fun h => hM ((recoded_mixed ha.ne' hab hr hv hp).mp h)
      refine ⟨b, fun c hc => ?_⟩
      rw [(q3 p hp).1 hM' c hc, (p3 p hp).1 hM c hc]
      obtain ⟨x, x1, x2⟩ := hv p hp 0 hn
      simp only [nbrLabel, x1, Int.toNat_natCast]
      exact hab.2.2 x x2 c hc
  obtain ⟨β, hβ⟩ := key
  exact ⟨⟨β, hβ⟩, fun c => firstMax_affine ha hβ⟩

/-- Non-vacuity of `C109_one_model_partial`: two classes, one-hot and as 1 and -1, three neighbours. -/
example (bs : Flt → ℝ → ℝ) : ∃ (w : NNWrapper) (labels labels' P P' : Tensor ℝ), w.Exact ∧ w.N = 3 ∧ w.nnCount = 3 ∧
    Recoded 2 (-1) labels labels' 3 2 ∧ labels.get [0, 0] = 1 ∧ labels.get [1, 0] = 0 ∧ labels'.get [1, 0] = -1 ∧
    classifyAny (fun idx nn => posteriorMeanFromIndices bs lineModel idx nn lineTest w.train labels) w lineTest labels = .ok P ∧
    classifyAny (fun idx nn => posteriorMeanFromIndices bs lineModel idx nn lineTest w.train labels') w lineTest labels' = .ok P' ∧
    ∀ c, IsFirstMax (fun c => P'.get [0, c]) 2 c ↔ IsFirstMax (fun c => P.get [0, c]) 2 c := by
  obtain ⟨answer, hw⟩ := exact_index_exists 3 1 3 lineTrain rfl (fun x y => |x 0 - y 0|) false
  set labels : Tensor ℝ := ⟨[3, 2], fun k => if k = 0 ∨ k = 3 ∨ k = 5 then 1 else 0⟩ with hlab
  set labels' : Tensor ℝ := ⟨[3, 2], fun k => if k = 0 ∨ k = 3 ∨ k = 5 then 1 else -1⟩ with hlab'
  have hL : ∀ i c, labels.get [i, c] = labels.flat (i * 2 + c) := fun i c => Tensor.get2 labels rfl _ _
  have hL' : ∀ i c, labels'.get [i, c] = labels'.flat (i * 2 + c) := fun i c => Tensor.get2 labels' rfl _ _
  have hrec : Recoded 2 (-1) labels labels' 3 2 := by
    refine ⟨rfl, rfl, fun i _ c _ => ?_⟩
    rw [hL, hL', hlab, hlab']
    simp only
    split <;> norm_num
  obtain ⟨P, P', h1, h2, -, -, h3⟩ := C109_one_model_partial bs lineModel rfl rfl _ hw lineTest labels labels' 2 2 (fun _ => 1)
    ⟨1, one_pos, rfl, fun _ => rfl⟩ rfl two_pos (by norm_num) two_pos (by norm_num) le_rfl (fun _ => trivial) (.inl one_pos)
    2 (-1) two_pos hrec
  refine ⟨_, labels, labels', P, P', hw, rfl, rfl, hrec, ?_, ?_, ?_, h1, h2, (h3 0 two_pos).2⟩
  · rw [hL, hlab]; norm_num
  · rw [hL, hlab]; norm_num
  · rw [hL', hlab']; norm_num

/-- Kriging mean when all row sums of the covariance agree and all cross-covariances agree. -/
theorem kriging_mean_balanced {n : Nat} (A : Matrix (Fin n) (Fin n) ℝ) (hA : A.det ≠ 0) (hsym : A.transpose = A) (s c : ℝ) (hs : s ≠ 0)
    (hrow : ∀ i, ∑ j, A i j = s) (k : Fin n → ℝ) (hk : ∀ i, k i = c) (y : Fin n → ℝ) : Spec.krigingMean A k y = c / s * ∑ j, y j := by
  have e : A *ᵥ (fun _ => c / s) = k := by
    funext i
    show ∑ j, A i j * (c / s) = k i
    rw [← Finset.sum_mul, hrow, hk]
    field_simp
  unfold Spec.krigingMean
  rw [← Kriging.swap hsym, ← e, Kriging.inv_mulVec_cancel hA]
  simp only [dotProduct, Finset.mul_sum]

/-- The RBF model of unit length scale with noise `τ`. -/
noncomputable def rbfNoise (τ : ℝ) : Regressor := ⟨lineModel.kernel, MuyGPS.make (.homoscedastic τ) KernelObj.kout 1⟩

/-- Training points `-1` and `1`. -/
def pairTrain : Tensor ℝ := ⟨[2, 1], fun k => if k = 0 then -1 else 1⟩

theorem pairTrain_row (i : Nat) (c : Fin 1) : rowPt pairTrain 1 i c = if i = 0 then -1 else 1 := by
  show pairTrain.get [i, c] = _
  rw [Tensor.get2 pairTrain rfl]
  simp [pairTrain]

/-- The point `-1` is of class 0, the point `1` of class 1. -/
def pairLabels : Tensor ℝ := ⟨[2, 2], fun k => if k = 0 ∨ k = 3 then 1 else 0⟩

@[inherit_doc pairLabels] def pairLabels' : Tensor ℝ := ⟨[2, 2], fun k => if k = 0 ∨ k = 3 then 1 else -1⟩

/-- The scores at `0` when the model of class 0 has noise 2 and the model of class 1 noise 1. -/
theorem pair_scores (bs : Flt → ℝ → ℝ) (answer : (Fin 1 → ℝ) → Nat → List Nat) (u : ℝ)
    (hw : NNWrapper.Exact ⟨2, 1, pairTrain, 2, fun x y => |x 0 - y 0|, false, answer⟩) (labels : Tensor ℝ) (hl : labels.shape = [2, 2])
    (hlab : ∀ i < 2, ∀ c < 2, labels.get [i, c] = if i = c then 1 else u) (hu : u ≠ 1) :
    ∃ P, classifyAny (fun idx nn => multiPosteriorMeanFromIndices bs [⟨rbfNoise 2, .fixed⟩, ⟨rbfNoise 1, .fixed⟩] idx nn (oneTest 0) pairTrain labels)
        ⟨2, 1, pairTrain, 2, fun x y => |x 0 - y 0|, false, answer⟩ (oneTest 0) labels = .ok P ∧
      P.get [0, 0] = Real.exp (-1 / 2) / (3 + Real.exp (-2)) * (1 + u) ∧ P.get [0, 1] = Real.exp (-1 / 2) / (2 + Real.exp (-2)) * (1 + u) := by
  set w : NNWrapper := ⟨2, 1, pairTrain, 2, fun x y => |x 0 - y 0|, false, answer⟩ with hwdef
  have hm2 : ∀ T : Trainee, T ∈ [(⟨rbfNoise 2, .fixed⟩ : Trainee), ⟨rbfNoise 1, .fixed⟩] → ∃ τ : ℝ, 0 < τ ∧ T = ⟨rbfNoise τ, .fixed⟩ := by
    intro T hT
    simp only [List.mem_cons, List.not_mem_nil, or_false] at hT
    rcases hT with rfl | rfl
    · exact ⟨2, two_pos, rfl⟩
    · exact ⟨1, one_pos, rfl⟩
  have hdec : FirstColumnDecides labels w.N 2 := by
    intro i hi k hk h c hc
    have hi' : i < 2 := hi
    have hk' : k < 2 := hk
    rw [hlab i hi' 0 two_pos, hlab k hk' 0 two_pos] at h
    rw [hlab i hi' c hc, hlab k hk' c hc]
    have hik : i = k := by
      by_contra hne
      interval_cases i <;> interval_cases k <;> first | exact hne rfl | (norm_num at h; exact hu (by linarith))
    rw [hik]
  obtain ⟨I, D, h1, h2, h3⟩ := C44_multi_output_partial bs ⟨rbfNoise 2, .fixed⟩ [⟨rbfNoise 2, .fixed⟩, ⟨rbfNoise 1, .fixed⟩] rfl
    (fun T hT => by obtain ⟨τ, -, rfl⟩ := hm2 T hT; exact ⟨rfl, rfl⟩) (fun T hT => by obtain ⟨τ, -, rfl⟩ := hm2 T hT; rfl)
    (fun T hT => by obtain ⟨τ, -, rfl⟩ := hm2 T hT; rfl) w hw (oneTest 0) labels 1 (fun _ _ => 1)
    (fun T hT => by obtain ⟨τ, -, rfl⟩ := hm2 T hT; exact ⟨1, one_pos, rfl, fun _ => rfl⟩) rfl hl one_pos two_pos (by show 2 ≤ 2; norm_num)
    (fun T hT _ => by obtain ⟨τ, -, rfl⟩ := hm2 T hT; trivial) hdec
  have hdet : ∀ τ : ℝ, 0 < τ → (nbrCov bs lineModel.kernel (fun _ : Fin 1 => 1) pairTrain 2 2 I 0 + τ • (1 : Matrix (Fin 2) (Fin 2) ℝ)).PosDef :=
    fun τ hτ => Kriging.posdef_of_psd_add (nbrCov_definite bs lineModel.kernel rfl (fun _ : Fin 1 => 1) (fun _ => one_pos) pairTrain 2 2 I 0).1 hτ
  obtain ⟨P, p1, p2, p3⟩ := h3 fun T hT p hp => by
    obtain ⟨τ, hτ, rfl⟩ := hm2 T hT
    obtain rfl : p = 0 := by omega
    exact Kriging.det_ne_zero (hdet τ hτ)
  obtain ⟨I', D', g1, -, -, g4, -⟩ := query_ok w hw (oneTest 0) 1 2 rfl one_pos two_pos le_rfl
  obtain ⟨rfl, rfl⟩ : I' = I ∧ D' = D := by
    have : w.query (oneTest 0) 2 = .ok (I, D) := h1
    rw [g1] at this
    simpa using this
  have hnear := hw.2 (rowPt (oneTest 0) 1 0) 2 le_rfl
  have e1 := g4 0 one_pos
  obtain ⟨x, y, hxy⟩ : ∃ x y, w.answer (rowPt (oneTest 0) 1 0) 2 = [x, y] := by
    have hlen : (w.answer (rowPt (oneTest 0) 1 0) 2).length = 2 := hnear.length
    match w.answer (rowPt (oneTest 0) 1 0) 2, hlen with
    | [x, y], _ => exact ⟨x, y, rfl⟩
  rw [show w.answer (rowPt (oneTest 0) w.f 0) 2 = _ from hxy] at e1
  rw [hxy] at hnear
  have hx2 : x < 2 := hnear.mem x (by simp)
  have hy2 : y < 2 := hnear.mem y (by simp)
  have hne : x ≠ y := by have := hnear.nodup; simpa using this
  have i0 : I'.get [0, 0] = (x : Int) := by
    obtain ⟨a, a1, a2⟩ := rowList_get e1 (j := 0) two_pos
    obtain rfl : x = a := by simpa using a1
    exact a2
  have i1 : I'.get [0, 1] = (y : Int) := by
    obtain ⟨a, a1, a2⟩ := rowList_get e1 (j := 1) (by norm_num)
    obtain rfl : y = a := by simpa using a1
    exact a2
  have hpt : ∀ i : Nat, pt pairTrain 1 (pointOf 2 (i : Int)) 0 = if i = 0 then -1 else 1 := fun i => by
    rw [pointOf_nat]; exact pairTrain_row i 0
  have hns : ¬ SameLabel labels I' w.nnCount 2 0 := fun h => by
    have := h 0 two_pos 1 (by show 1 < 2; norm_num) 0 two_pos
    simp only [nbrLabel, i0, i1, Int.toNat_natCast] at this
    rw [hlab x hx2 0 two_pos, hlab y hy2 0 two_pos] at this
    interval_cases x <;> interval_cases y <;> first | exact hne rfl | (norm_num at this; exact hu (by linarith))
  have hscore : ∀ τ : ℝ, 0 < τ → ∀ c < 2, Spec.krigingMean (nbrCov bs lineModel.kernel (fun _ : Fin 1 => 1) pairTrain 2 2 I' 0 + τ • 1)
      (nbrCross bs lineModel.kernel (fun _ : Fin 1 => 1) pairTrain 2 2 I' 0 (rowPt (oneTest 0) 1 0)) (nbrTargets labels 2 2 I' 0 c) =
      Real.exp (-1 / 2) / (1 + τ + Real.exp (-2)) * (1 + u) := fun τ hτ c hc => by
    have hpd := hdet τ hτ
    rw [kriging_mean_balanced _ (Kriging.det_ne_zero hpd) (Kriging.posdef_symm hpd) (1 + τ + Real.exp (-2)) (Real.exp (-1 / 2)) (by positivity)
      (fun i => ?_) _ (fun i => ?_)]
    · congr 1
      rw [Fin.sum_univ_two]
      have t0 : nbrTargets labels 2 2 I' 0 c 0 = if x = c then 1 else u := by
        unfold nbrTargets
        rw [show ((0 : Fin 2) : Nat) = 0 from rfl, i0, pointOf_nat]
        simp only [feature, hl]
        exact hlab x hx2 c hc
      have t1 : nbrTargets labels 2 2 I' 0 c 1 = if y = c then 1 else u := by
        unfold nbrTargets
        rw [show ((1 : Fin 2) : Nat) = 1 from rfl, i1, pointOf_nat]
        simp only [feature, hl]
        exact hlab y hy2 c hc
      rw [t0, t1]
      interval_cases x <;> interval_cases y <;> first | exact absurd rfl hne | (interval_cases c <;> norm_num <;> ring)
    · rw [Fin.sum_univ_two]
      have hc : ∀ a b : Fin 2, nbrCov bs lineModel.kernel (fun _ : Fin 1 => 1) pairTrain 2 2 I' 0 a b = if a = b then 1 else Real.exp (-2) := by
        intro a b
        unfold nbrCov
        rw [line_cov]
        have j0 : pt pairTrain 1 (pointOf 2 (I'.get [0, ((0 : Fin 2) : Nat)])) 0 = if x = 0 then -1 else 1 := by rw [← hpt x, ← i0]; rfl
        have j1 : pt pairTrain 1 (pointOf 2 (I'.get [0, ((1 : Fin 2) : Nat)])) 0 = if y = 0 then -1 else 1 := by rw [← hpt y, ← i1]; rfl
        interval_cases x <;> interval_cases y <;> first | exact absurd rfl hne | (fin_cases a <;> fin_cases b <;> simp_all <;> norm_num)
      simp only [Matrix.add_apply, Matrix.smul_apply, Matrix.one_apply, hc]
      fin_cases i <;> simp <;> ring
    · unfold nbrCross
      rw [line_cov, oneTest_row]
      have j0 : pt pairTrain 1 (pointOf 2 (I'.get [0, ((0 : Fin 2) : Nat)])) 0 = if x = 0 then -1 else 1 := by rw [← hpt x, ← i0]; rfl
      have j1 : pt pairTrain 1 (pointOf 2 (I'.get [0, ((1 : Fin 2) : Nat)])) 0 = if y = 0 then -1 else 1 := by rw [← hpt y, ← i1]; rfl
      congr 1
      fin_cases i
      · show -(0 - pt pairTrain 1 (pointOf 2 (I'.get [0, ((0 : Fin 2) : Nat)])) 0) ^ 2 / 2 = _
        rw [j0]; split <;> norm_num
      · show -(0 - pt pairTrain 1 (pointOf 2 (I'.get [0, ((1 : Fin 2) : Nat)])) 0) ^ 2 / 2 = _
        rw [j1]; split <;> norm_num
  refine ⟨P, p1, ?_, ?_⟩
  · refine ((p3 0 one_pos).2 hns 0 ⟨rbfNoise 2, .fixed⟩ rfl).trans ((hscore 2 two_pos 0 two_pos).trans ?_)
    norm_num
  · refine ((p3 0 one_pos).2 hns 1 ⟨rbfNoise 1, .fixed⟩ rfl).trans ((hscore 1 one_pos 1 (by norm_num)).trans ?_)
    norm_num

theorem pairLabels_recoded : Recoded 2 (-1) pairLabels pairLabels' 2 2 := by
  have hL : ∀ i c, pairLabels.get [i, c] = pairLabels.flat (i * 2 + c) := fun i c => Tensor.get2 pairLabels rfl _ _
  have hL' : ∀ i c, pairLabels'.get [i, c] = pairLabels'.flat (i * 2 + c) := fun i c => Tensor.get2 pairLabels' rfl _ _
  refine ⟨rfl, rfl, fun i _ c _ => ?_⟩
  rw [hL, hL', pairLabels, pairLabels']
  simp only
  split <;> norm_num

/-- **C109, where the code fails**: with one model per class the numbers the classes are written with can decide which class is predicted, because
the models shrink the scores by different amounts. Training points `-1` of class 0 and `1` of class 1, test point `0`, RBF models that differ in their
noise: with one-hot labels the predicted class is 1, with labels 1 and -1 it is 0. -/
theorem C109_one_model_per_class_fails (bs : Flt → ℝ → ℝ) : ∃ (models : List Trainee) (w : NNWrapper) (test labels labels' P P' : Tensor ℝ),
    (∀ T ∈ models, T.R.kernel = lineModel.kernel ∧ ∃ τ, 0 < τ ∧ T.R.gp.noise.Level τ) ∧ models.length = 2 ∧ w.Exact ∧
    Recoded 2 (-1) labels labels' w.N 2 ∧ (∀ i < w.N, ∀ c < 2, labels.get [i, c] = if i = c then 1 else 0) ∧
    classifyAny (fun idx nn => multiPosteriorMeanFromIndices bs models idx nn test w.train labels) w test labels = .ok P ∧
    classifyAny (fun idx nn => multiPosteriorMeanFromIndices bs models idx nn test w.train labels') w test labels' = .ok P' ∧
    IsFirstMax (fun c => P.get [0, c]) 2 1 ∧ IsFirstMax (fun c => P'.get [0, c]) 2 0 := by
  obtain ⟨answer, hw⟩ := exact_index_exists 2 1 2 pairTrain rfl (fun x y => |x 0 - y 0|) false
  have hL : ∀ i c, pairLabels.get [i, c] = pairLabels.flat (i * 2 + c) := fun i c => Tensor.get2 pairLabels rfl _ _
  have hL' : ∀ i c, pairLabels'.get [i, c] = pairLabels'.flat (i * 2 + c) := fun i c => Tensor.get2 pairLabels' rfl _ _
  have hlab : ∀ i < 2, ∀ c < 2, pairLabels.get [i, c] = if i = c then 1 else 0 := fun i hi c hc => by
    rw [hL, pairLabels]; interval_cases i <;> interval_cases c <;> norm_num
  have hlab' : ∀ i < 2, ∀ c < 2, pairLabels'.get [i, c] = if i = c then 1 else -1 := fun i hi c hc => by
    rw [hL', pairLabels']; interval_cases i <;> interval_cases c <;> norm_num
  obtain ⟨P, p1, p2, p3⟩ := pair_scores bs answer 0 hw pairLabels rfl hlab (by norm_num)
  obtain ⟨P', q1, q2, q3⟩ := pair_scores bs answer (-1) hw pairLabels' rfl hlab' (by norm_num)
  refine ⟨_, _, oneTest 0, pairLabels, pairLabels', P, P', fun T hT => ?_, rfl, hw, pairLabels_recoded, hlab, p1, q1,
    ⟨by norm_num, fun c hc => ?_, fun c hc => ?_⟩, ⟨two_pos, fun c hc => ?_, fun c hc => absurd hc (Nat.not_lt_zero c)⟩⟩
  · simp only [List.mem_cons, List.not_mem_nil, or_false] at hT
    rcases hT with rfl | rfl
    · exact ⟨rfl, 2, two_pos, rfl⟩
    · exact ⟨rfl, 1, one_pos, rfl⟩
  · have h : Real.exp (-1 / 2) / (3 + Real.exp (-2)) ≤ Real.exp (-1 / 2) / (2 + Real.exp (-2)) :=
      div_le_div_of_nonneg_left (Real.exp_pos _).le (by positivity) (by linarith)
    interval_cases c
    · simp only [p2, p3]; linarith
    · exact le_rfl
  · have h : Real.exp (-1 / 2) / (3 + Real.exp (-2)) < Real.exp (-1 / 2) / (2 + Real.exp (-2)) :=
      div_lt_div_of_pos_left (Real.exp_pos _) (by positivity) (by linarith)
    interval_cases c
    simp only [p2, p3]; linarith
  · interval_cases c
    · exact le_rfl
    · simp only [q2, q3]; norm_num

end MuyGPyS
