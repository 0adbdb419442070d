import Verif.Model.ShearWorkflow
import Verif.Spec.ShearWorkflow
import Verif.Props.Shear
import Verif.Props.Tensors
import Verif.Props.Scale
import Verif.Props.Loss
import Verif.Props.LossMulti

/-! # C87: shear models in the library's workflows -/

namespace MuyGPyS
namespace Shear
open Py Py.Tensor Matrix

/-- Positions and neighbours denoted by the index arrays. -/
def queryAt (Q : Tensor ℝ) (M : Nat) (idx : Tensor Int) (p : Nat) : ℝ × ℝ := planePt Q (pointOf M (idx.get [p]))

/-- See `queryAt`. -/
def nbrAt (X : Tensor ℝ) (N : Nat) (nn : Tensor Int) (p i : Nat) : ℝ × ℝ := planePt X (pointOf N (nn.get [p, i]))

theorem feature_plane {X : Tensor ℝ} {N : Nat} (h : X.shape = [N, 2]) (i : Nat) :
    feature X i 0 = (planePt X i).1 ∧ feature X i 1 = (planePt X i).2 := by
  unfold feature planePt
  rw [h]
  exact ⟨rfl, rfl⟩

/-- The tensors of a shear model. -/
theorem predict_tensors (idx nn : Tensor Int) (Q X Y : Tensor ℝ) (M N b n o : Nat) (hQ : Q.shape = [M, 2]) (hX : X.shape = [N, 2])
    (hY : Y.shape = [N, o]) (hi : idx.shape = [b]) (hnn : nn.shape = [b, n]) (hvi : AllValid M idx) (hv : AllValid N nn) :
    ∃ u t Z, makePredictTensors .differenceIsotropy .F2 idx nn (some Q) X Y = .ok (u, t, Z) ∧
      PairwiseDiffs b n (nbrAt X N nn) t ∧ CrosswiseDiffs b n (queryAt Q M idx) (nbrAt X N nn) u ∧ Z.shape = [b, n, o] ∧
      ∀ p < b, ∀ i < n, ∀ c < o, Z.get [p, i, c] = Y.get [pointOf N (nn.get [p, i]), c] := by
  obtain ⟨u, u1, u2, u3⟩ := C14_crosswise Q X idx nn M N 2 b n (.inl hQ) (.inl hX) (by rw [hQ, hX]; rfl) hi hnn hvi hv
  obtain ⟨t, t1, t2, t3⟩ := C15_pairwise X nn N 2 b n (.inl hX) hnn hv
  obtain ⟨Z, z1, z2, z3⟩ := take_mat hY hv
  rw [hnn] at z2
  refine ⟨u, t, Z, ?_, ⟨t2, fun p hp i hi' j hj => ⟨?_, ?_⟩⟩, ⟨u2, fun p hp i hi' => ⟨?_, ?_⟩⟩, z2, fun p hp i hi' c hc => ?_⟩
  · unfold makePredictTensors defCrosswise defPairwise
    simp only [Option.getD_some, u1, t1, z1, bind, Except.bind, pure, Except.pure]
  · rw [t3 p i j 0 hp hi' hj (by omega), (feature_plane hX _).1, (feature_plane hX _).1]; rfl
  · rw [t3 p i j 1 hp hi' hj (by omega), (feature_plane hX _).2, (feature_plane hX _).2]; rfl
  · rw [u3 p i 0 hp hi' (by omega), (feature_plane hQ _).1, (feature_plane hX _).1]; rfl
  · rw [u3 p i 1 hp hi' (by omega), (feature_plane hQ _).2, (feature_plane hX _).2]; rfl
  · have h := z3 (p * n + i) c hc
    have e : Z.get [p, i, c] = Z.flat ((p * n + i) * o + c) := by
      rw [get3 Z z2]; congr 1; ring
    rw [e, h]
    unfold feature
    rw [hY]
    simp only
    rw [get2 nn hnn]

theorem swapLast_get {Z : Tensor ℝ} {b n o : Nat} (h : Z.shape = [b, n, o]) :
    (swapLast Z).shape = [b, o, n] ∧ ∀ p < b, ∀ a < o, ∀ i < n, (swapLast Z).get [p, a, i] = Z.get [p, i, a] := by
  unfold swapLast
  rw [h]
  refine ⟨rfl, fun p hp a ha i hi => ?_⟩
  simp only
  rw [get_ofFn _ _ _ (.cons hp (.cons ha (.cons hi .nil)))]
  rfl

/-- The swapped targets are the neighbours' observations. -/
theorem swapped_obs {Z Y : Tensor ℝ} {b n o : Nat} {j : Nat → Nat → Nat} (h : Z.shape = [b, n, o])
    (hz : ∀ p < b, ∀ i < n, ∀ c < o, Z.get [p, i, c] = Y.get [j p i, c]) (p : Nat) (hp : p < b) :
    Spec.vec3 o n (swapLast Z) p = nbrObs o n Y (j p) := by
  funext i
  have h1 : (i : Nat) % n < n := mod_lt_of i
  have h2 : (i : Nat) / n < o := (obsOf i).2
  unfold Spec.vec3 nbrObs
  rw [(swapLast_get h).2 p hp _ h2 _ h1, hz p hp _ h1 _ h2]
  rfl

theorem gp_ok (k : Kern) (two : Bool) (ν : Noise) (σ : ℝ) (sk : ScaleKind) (Kout : Tensor ℝ)
    (h3 : k.kout = .ok Kout) (h2 : k.kout23 = .ok Kout) :
    (ShearModel.mk k two ν σ sk).gp = .ok (MuyGPS.make ν Kout σ) := by
  unfold ShearModel.gp
  cases two
  · simp only [Bool.false_eq_true, if_false, h3, bind, Except.bind, pure, Except.pure]
  · simp only [if_true, h2, bind, Except.bind, pure, Except.pure]

/-- **C87**, prediction with all three quantities as the repository's tests do it (targets swapped by hand): kriging. Partial: needs at
least two queries, two neighbours, in different numbers (C48), and the library's own `regress_from_indices` does not swap
(`C87_workflow_raises`, `C87_workflow_silent`). -/
theorem C87_predict_partial (k : Kern) (hℓ : 0 < k.lengthScale) (τ σ : ℝ) (hτ : 0 < τ) (shearNoise : Bool) (sk : ScaleKind)
    (idx nn : Tensor Int) (Q X Y : Tensor ℝ) (M N b n : Nat) (hb : b ≠ 1) (hn : n ≠ 1) (hbn : b ≠ n)
    (hQ : Q.shape = [M, 2]) (hX : X.shape = [N, 2]) (hY : Y.shape = [N, 3]) (hi : idx.shape = [b]) (hnn : nn.shape = [b, n])
    (hvi : AllValid M idx) (hv : AllValid N nn) :
    ∃ μ V, shearRegress ⟨k, false, (noiseOf n τ shearNoise).1, σ, sk⟩ idx nn Q X Y = .ok (μ, V) ∧
      PredictsFrom k.lengthScale σ id b n (noiseOf n τ shearNoise).2 (queryAt Q M idx) (nbrAt X N nn)
        (fun p => nbrObs 3 n Y fun i => pointOf N (nn.get [p, i])) μ V := by
  obtain ⟨u, t, Z, h1, ht, hu, hZ, hz⟩ := predict_tensors idx nn Q X Y M N b n 3 hQ hX hY hi hnn hvi hv
  obtain ⟨Kin, Kcross, Kout, μ, V, a1, a2, a3, a4, a5, a6⟩ := C48_predict_partial k hℓ b n hb hn hbn τ σ hτ shearNoise _ _ t u
    (swapLast Z) ht hu (swapLast_get hZ).1
  obtain ⟨_, b1, b2, _⟩ := C48_kout k hℓ.ne'
  rw [a3] at b1; cases b1
  refine ⟨μ, V, ?_, a6.1, a6.2.1, fun p hp c => ⟨?_, (a6.2.2 p hp c).2⟩⟩
  · unfold shearRegress shearTensors ShearModel.call
    simp only [gp_ok k false _ σ sk Kout a3 b2, h1, Dict.get?, List.find?_nil, Option.map_none, a1, a2, a4, a5, bind,
      Except.bind, pure, Except.pure, Bool.false_eq_true, if_false]
  · rw [(a6.2.2 p hp c).1, swapped_obs hZ hz p hp]

/-- **C87**, prediction of all three quantities from the two shears. -/
theorem C87_predict_two_partial (k : Kern) (hℓ : 0 < k.lengthScale) (τ σ : ℝ) (hτ : 0 < τ) (sk : ScaleKind)
    (idx nn : Tensor Int) (Q X Y : Tensor ℝ) (M N b n : Nat) (hb : b ≠ 1) (hn : n ≠ 1) (hbn : b ≠ n)
    (hQ : Q.shape = [M, 2]) (hX : X.shape = [N, 2]) (hY : Y.shape = [N, 2]) (hi : idx.shape = [b]) (hnn : nn.shape = [b, n])
    (hvi : AllValid M idx) (hv : AllValid N nn) :
    ∃ μ V, shearRegress ⟨k, true, .homoscedastic τ, σ, sk⟩ idx nn Q X Y = .ok (μ, V) ∧
      PredictsFrom k.lengthScale σ Fin.succ b n (τ • 1) (queryAt Q M idx) (nbrAt X N nn)
        (fun p => nbrObs 2 n Y fun i => pointOf N (nn.get [p, i])) μ V := by
  obtain ⟨u, t, Z, h1, ht, hu, hZ, hz⟩ := predict_tensors idx nn Q X Y M N b n 2 hQ hX hY hi hnn hvi hv
  obtain ⟨Kin, Kcross, Kout, μ, V, a1, a2, a3, a4, a5, a6⟩ := C48_predict_two_partial k hℓ b n hb hn hbn τ σ hτ _ _ t u
    (swapLast Z) ht hu (swapLast_get hZ).1
  obtain ⟨_, b1, b2, _⟩ := C48_kout k hℓ.ne'
  rw [a3] at b2; cases b2
  refine ⟨μ, V, ?_, a6.1, a6.2.1, fun p hp c => ⟨?_, (a6.2.2 p hp c).2⟩⟩
  · unfold shearRegress shearTensors ShearModel.call
    simp only [gp_ok k true _ σ sk Kout b1 a3, h1, Dict.get?, List.find?_nil, Option.map_none, a1, a2, a4, a5, bind,
      Except.bind, pure, Except.pure, if_true]
  · rw [(a6.2.2 p hp c).1, swapped_obs hZ hz p hp]

/-! ## the library's own workflow -/

/-- The posterior mean with targets in the library's layout `(b, n, o)`: always an error unless there are `o` neighbours. -/
theorem posteriorMean_unswapped (P Kcross y : Tensor ℝ) (b n o : Nat) (hb : 0 < b) (hn : 0 < n) (ho : 1 < o) (hno : n ≠ o)
    (hP : P.shape = [b, o, n, o, n]) (hC : Kcross.shape = [b, o, n, 3]) (hy : y.shape = [b, n, o]) :
    posteriorMean P Kcross y = .error .value := by
  have hm : findMatchingNdim y.shape P.shape = .ok 1 := by
    rw [hy, hP]
    simp [findMatchingNdim, hno, Ne.symm hno]
  unfold posteriorMean
  rw [hm]
  simp only [bind, Except.bind]
  have e1 : P.shape.drop 1 = [o, n, o, n] := by rw [hP]; rfl
  have e2 : dropTail2 P.shape 4 = [] := by rw [hP]; rfl
  simp only [e1, List.length_nil, List.length_cons, Nat.zero_add, Nat.reduceAdd]
  simp only [e2, List.nil_append, List.length_nil, Nat.zero_add]
  by_cases hr : [(([o, n, o, n] : List Nat).prod), (y.shape.drop 4).prod].prod = (y.shape).prod
  · rw [reshape_ok _ _ hr]
    simp only
    rw [reshape_err]
    rw [hP]
    simp only [List.prod_cons, List.prod_nil, Nat.mul_one]
    rw [hy] at hr
    simp only [List.drop_succ_cons, List.drop_nil, List.prod_cons, List.prod_nil, Nat.mul_one] at hr
    intro h
    -- b = o * n and b = (o * n)^2 * ... : impossible
    have hon : 0 < o * n := Nat.mul_pos (by omega) hn
    have h1 : b = o * n := by
      have : b * (o * n) = o * n * (o * n) := by
        calc b * (o * n) = b * (n * o) := by ring
          _ = o * (n * (o * n)) := hr.symm
          _ = o * n * (o * n) := by ring
      exact Nat.eq_of_mul_eq_mul_right hon this
    have h2 : b * ((o * n) * (o * n)) = (o * n * (o * n)) * ((o * n) * (o * n)) := by
      calc b * ((o * n) * (o * n)) = b * (o * (n * (o * n))) := by ring
        _ = (o * (n * (o * n))) * (o * (n * (o * n))) := h.symm
        _ = _ := by ring
    have h3 : b = o * n * (o * n) := Nat.eq_of_mul_eq_mul_right (Nat.mul_pos hon hon) h2
    rw [h1] at h3
    have h4 : 1 = o * n := Nat.eq_of_mul_eq_mul_left hon (by rw [Nat.mul_one]; exact h3)
    have : o * n ≥ 2 * 1 := Nat.mul_le_mul ho hn
    omega
  · rw [reshape_err _ _ hr]

/-- The perturbed covariance of three quantities has the shape of the covariance. -/
theorem perturbed_shape (n : Nat) (τ : ℝ) (shearNoise : Bool) (b : Nat) (Kin : Tensor ℝ) (h : Kin.shape = [b, 3, n, 3, n]) :
    ∃ P, (noiseOf n τ shearNoise).1.perturb Kin = .ok P ∧ P.shape = [b, 3, n, 3, n] := by
  cases shearNoise
  · obtain ⟨P, p1, p2, _⟩ := homoscedastic5 Kin τ h
    exact ⟨P, p1, p2⟩
  · obtain ⟨P, p1, p2, _⟩ := shear5 Kin τ h
    exact ⟨P, p1, p2⟩

/-- **C87 is false of the library's own workflow.** `regress_from_indices` hands the neighbours' targets to the posterior in the layout
`(queries, neighbours, quantities)`, the shear covariances are laid out `(queries, quantities, neighbours, …)`: unless there are exactly
three neighbours it raises `ValueError`, for every data and every model. -/
theorem C87_workflow_raises (k : Kern) (hℓ : 0 < k.lengthScale) (τ σ : ℝ) (shearNoise : Bool) (sk : ScaleKind)
    (idx nn : Tensor Int) (Q X Y : Tensor ℝ) (M N b n : Nat) (hb : 1 < b) (hn : 1 < n) (hbn : b ≠ n) (hn3 : n ≠ 3)
    (hQ : Q.shape = [M, 2]) (hX : X.shape = [N, 2]) (hY : Y.shape = [N, 3]) (hi : idx.shape = [b]) (hnn : nn.shape = [b, n])
    (hvi : AllValid M idx) (hv : AllValid N nn) :
    shearRegressFromIndices ⟨k, false, (noiseOf n τ shearNoise).1, σ, sk⟩ idx nn Q X Y = .error .value := by
  obtain ⟨u, t, Z, h1, ht, hu, hZ, -⟩ := predict_tensors idx nn Q X Y M N b n 3 hQ hX hY hi hnn hvi hv
  obtain ⟨Kin, a1, a2, _⟩ := C48_pairwise_partial k hℓ.ne' b n (by omega) (by omega) _ t ht
  obtain ⟨Kcross, c1, c2, _⟩ := C48_crosswise_partial k hℓ.ne' b n (by omega) (by omega) hbn _ _ u hu
  obtain ⟨Kout, b1, b2, _⟩ := C48_kout k hℓ.ne'
  obtain ⟨P, p1, p2⟩ := perturbed_shape n τ shearNoise b Kin a2
  have hm : (MuyGPS.make (noiseOf n τ shearNoise).1 Kout σ).posteriorMean Kin Kcross Z = .error .value := by
    show (noiseOf n τ shearNoise).1.perturbFn _ Kin = _
    unfold Noise.perturbFn
    rw [p1]
    exact posteriorMean_unswapped P Kcross Z b n 3 (by omega) (by omega) (by omega) hn3 p2 c2 hZ
  unfold shearRegressFromIndices shearTensors ShearModel.call
  simp only [gp_ok k false _ σ sk Kout b1 b2, h1, Dict.get?, List.find?_nil, Option.map_none, a1, c1, hm, bind, Except.bind, pure,
    Except.pure, Bool.false_eq_true, if_false]

/-- The same with two observed quantities, unless there are exactly two neighbours. -/
theorem C87_workflow_two_raises (k : Kern) (hℓ : 0 < k.lengthScale) (τ σ : ℝ) (sk : ScaleKind)
    (idx nn : Tensor Int) (Q X Y : Tensor ℝ) (M N b n : Nat) (hb : 1 < b) (hn : 1 < n) (hbn : b ≠ n) (hn2 : n ≠ 2)
    (hQ : Q.shape = [M, 2]) (hX : X.shape = [N, 2]) (hY : Y.shape = [N, 2]) (hi : idx.shape = [b]) (hnn : nn.shape = [b, n])
    (hvi : AllValid M idx) (hv : AllValid N nn) :
    shearRegressFromIndices ⟨k, true, .homoscedastic τ, σ, sk⟩ idx nn Q X Y = .error .value := by
  obtain ⟨u, t, Z, h1, ht, hu, hZ, -⟩ := predict_tensors idx nn Q X Y M N b n 2 hQ hX hY hi hnn hvi hv
  obtain ⟨⟨Kin, a1, a2, _⟩, hc⟩ := C48_two_observables_partial k hℓ.ne' b n (by omega) (by omega) _ _ t u ht hu
  obtain ⟨Kcross, c1, c2, _⟩ := hc hbn
  obtain ⟨Kout, b1, b2, _⟩ := C48_kout k hℓ.ne'
  obtain ⟨P, p1, p2, _⟩ := homoscedastic5 Kin τ a2
  have hm : (MuyGPS.make (.homoscedastic τ) Kout σ).posteriorMean Kin Kcross Z = .error .value := by
    show (Noise.homoscedastic τ).perturbFn _ Kin = _
    unfold Noise.perturbFn
    have p1' : (Noise.homoscedastic τ).perturb Kin = .ok P := p1
    rw [p1']
    exact posteriorMean_unswapped P Kcross Z b n 2 (by omega) (by omega) (by omega) hn2 p2 c2 hZ
  unfold shearRegressFromIndices shearTensors ShearModel.call
  simp only [gp_ok k true _ σ sk Kout b1 b2, h1, Dict.get?, List.find?_nil, Option.map_none, a1, c1, hm, bind, Except.bind, pure,
    Except.pure, if_true]

/-- **C87, silently wrong.** With exactly three neighbours `regress_from_indices` returns, but the observation of quantity `a` at
neighbour `i` is taken for the observation of quantity `i` at neighbour `a`. -/
theorem C87_workflow_silent (k : Kern) (hℓ : 0 < k.lengthScale) (τ σ : ℝ) (hτ : 0 < τ) (shearNoise : Bool) (sk : ScaleKind)
    (idx nn : Tensor Int) (Q X Y : Tensor ℝ) (M N b : Nat) (hb : b ≠ 1) (hb3 : b ≠ 3)
    (hQ : Q.shape = [M, 2]) (hX : X.shape = [N, 2]) (hY : Y.shape = [N, 3]) (hi : idx.shape = [b]) (hnn : nn.shape = [b, 3])
    (hvi : AllValid M idx) (hv : AllValid N nn) :
    ∃ μ V, shearRegressFromIndices ⟨k, false, (noiseOf 3 τ shearNoise).1, σ, sk⟩ idx nn Q X Y = .ok (μ, V) ∧
      PredictsFrom k.lengthScale σ id b 3 (noiseOf 3 τ shearNoise).2 (queryAt Q M idx) (nbrAt X N nn)
        (fun p i => Y.get [pointOf N (nn.get [p, (obsOf i : Fin 3)]), (i : Nat) % 3]) μ V := by
  obtain ⟨u, t, Z, h1, ht, hu, hZ, hz⟩ := predict_tensors idx nn Q X Y M N b 3 3 hQ hX hY hi hnn hvi hv
  obtain ⟨Kin, Kcross, Kout, μ, V, a1, a2, a3, a4, a5, a6⟩ := C48_predict_partial k hℓ b 3 hb (by omega) hb3 τ σ hτ shearNoise _ _ t u
    Z ht hu hZ
  obtain ⟨_, b1, b2, _⟩ := C48_kout k hℓ.ne'
  rw [a3] at b1; cases b1
  refine ⟨μ, V, ?_, a6.1, a6.2.1, fun p hp c => ⟨?_, (a6.2.2 p hp c).2⟩⟩
  · unfold shearRegressFromIndices shearTensors ShearModel.call
    simp only [gp_ok k false _ σ sk Kout a3 b2, h1, Dict.get?, List.find?_nil, Option.map_none, a1, a2, a4, a5, bind,
      Except.bind, pure, Except.pure, Bool.false_eq_true, if_false]
  · rw [(a6.2.2 p hp c).1]
    congr 1
    funext i
    exact hz p hp _ (obsOf i).2 _ (mod_lt_of i)

/-! ## training -/

/-- The keyword arguments of a trial: length scale `ℓ`, and noise `τ'` if the noise is optimised. -/
def TrialKw (kw : Dict Flt) (k : Kern) (τ : ℝ) (ℓ τ' : ℝ) : Prop :=
  ((Dict.get? kw "length_scale").map Flt.toReal).getD k.lengthScale = ℓ ∧ ((Dict.get? kw "noise").map Flt.toReal).getD τ = τ'

theorem perturb_trial (n : Nat) (τ τ' : ℝ) (shearNoise : Bool) (kw : Option ℝ) (h : kw.getD τ = τ') (K : Tensor ℝ) :
    (noiseOf n τ shearNoise).1.perturb K kw = (noiseOf n τ' shearNoise).1.perturb K := by
  subst h
  cases shearNoise <;> rfl

theorem sum_range_list (b : Nat) (f : Nat → ℝ) : ((List.range b).map f).sum = ∑ p ∈ Finset.range b, f p := by
  induction b with
  | zero => simp
  | succ b ih => rw [List.range_succ, List.map_append, List.sum_append, ih, Finset.sum_range_succ]; simp

theorem sum_range_mul (b k : Nat) (f : Nat → ℝ) :
    ∑ q ∈ Finset.range (b * k), f q = ∑ p ∈ Finset.range b, ∑ c : Fin k, f (p * k + c) := by
  induction b with
  | zero => simp
  | succ b ih => rw [Nat.succ_mul, Finset.sum_range_add, ih, Finset.sum_range_succ, Finset.sum_range (fun x => f (b * k + x))]

/-- The mean squared error of two matrices. -/
theorem mse_matrix (pred targ : Tensor ℝ) (b k : Nat) (hp : pred.shape = [b, k]) (ht : targ.shape = [b, k]) :
    LossKind.mse.runRaw pred targ =
      .ok ((∑ p ∈ Finset.range b, ∑ c : Fin k, (pred.get [p, c] - targ.get [p, c]) ^ 2) / (b * k)) := by
  unfold LossKind.runRaw
  rw [if_pos (hp.trans ht.symm)]
  simp only
  rw [Loss.mse_eq (by simp [entries, hp, ht])]
  congr 1
  have hl : (entries pred).length = b * k := by simp [entries, hp]
  rw [hl]
  push_cast
  congr 1
  have : List.zipWith (fun p t => (p - t) ^ 2) (entries pred) (entries targ) =
      (List.range (b * k)).map fun q => (pred.flat q - targ.flat q) ^ 2 := by
    unfold entries
    rw [hp, ht]
    simp only [List.prod_cons, List.prod_nil, Nat.mul_one]
    rw [List.zipWith_map, List.zipWith_self]
  rw [this, sum_range_list, sum_range_mul]
  refine Finset.sum_congr rfl fun p _ => Finset.sum_congr rfl fun c _ => ?_
  rw [get2 pred hp, get2 targ ht]

/-- The training tensors of a shear model. -/
theorem train_tensors (idx nn : Tensor Int) (X Y : Tensor ℝ) (N b n o : Nat) (hX : X.shape = [N, 2])
    (hY : Y.shape = [N, o]) (hi : idx.shape = [b]) (hnn : nn.shape = [b, n]) (hvi : AllValid N idx) (hv : AllValid N nn) :
    ∃ u t T Z, makeTrainTensors .differenceIsotropy .F2 idx nn X Y = .ok (u, t, T, Z) ∧
      PairwiseDiffs b n (nbrAt X N nn) t ∧ CrosswiseDiffs b n (queryAt X N idx) (nbrAt X N nn) u ∧ Z.shape = [b, n, o] ∧
      (∀ p < b, ∀ i < n, ∀ c < o, Z.get [p, i, c] = Y.get [pointOf N (nn.get [p, i]), c]) ∧ T.shape = [b, o] ∧
      ∀ p < b, ∀ c < o, T.get [p, c] = Y.get [pointOf N (idx.get [p]), c] := by
  obtain ⟨u, t, Z, h1, h2, h3, h4, h5⟩ := predict_tensors idx nn X X Y N N b n o hX hX hY hi hnn hvi hv
  obtain ⟨T, t1, t2, t3⟩ := take_mat hY hvi
  rw [hi] at t2
  refine ⟨u, t, T, Z, ?_, h2, h3, h4, h5, t2, fun p hp c hc => ?_⟩
  · unfold makePredictTensors at h1
    unfold makeTrainTensors
    simp only [Option.getD_some, bind, Except.bind, pure, Except.pure] at h1 ⊢
    cases e1 : defCrosswise .differenceIsotropy .F2 X X idx nn with
    | error e => rw [e1] at h1; cases h1
    | ok u' =>
      cases e2 : defPairwise .differenceIsotropy .F2 X nn with
      | error e => rw [e1, e2] at h1; cases h1
      | ok t' =>
        cases e3 : Y.take nn with
        | error e => rw [e1, e2, e3] at h1; cases h1
        | ok Z' =>
          rw [e1, e2, e3] at h1
          cases h1
          simp only [t1]
  · rw [get2 T t2, t3 p c hc]
    unfold feature
    rw [hY, get1 idx hi]

/-- The prediction of a trial in training: kriging with the trial length scale and the trial noise. -/
theorem trial_mean (k : Kern) (τ σ ℓ τ' : ℝ) (hℓ : 0 < ℓ) (hτ : 0 < τ') (shearNoise : Bool) (Kout : Tensor ℝ) (kw : Option ℝ)
    (hkw : kw.getD τ = τ') (b n : Nat) (hb : b ≠ 1) (hn : n ≠ 1) (hbn : b ≠ n) (z : Nat → ℝ × ℝ) (x : Nat → Nat → ℝ × ℝ) (t u y : Tensor ℝ)
    (ht : PairwiseDiffs b n x t) (hu : CrosswiseDiffs b n z x u) (hy : y.shape = [b, 3, n]) :
    ∃ Kin Kcross μ, k.call33 t true (some ℓ) = .ok Kin ∧ k.call33 u true (some ℓ) = .ok Kcross ∧ Kin.shape = [b, 3, n, 3, n] ∧
      (∀ p < b, Spec.cov5 3 n Kin p = neighbourCov ℓ id n (x p)) ∧
      (MuyGPS.make (noiseOf n τ shearNoise).1 Kout σ).optMean Kin Kcross y kw = .ok μ ∧ μ.shape = [b, 3] ∧
      ∀ p < b, ∀ c : Fin 3, μ.get [p, c] =
        Spec.krigingMean (neighbourCov ℓ id n (x p) + (noiseOf n τ' shearNoise).2) (fun i => queryCov ℓ id n (x p) (z p) i c)
          (Spec.vec3 3 n y p) := by
  obtain ⟨Kin, Kcross, Kout', μ, V, a1, a2, _, a4, _, a6⟩ := C48_predict_partial ⟨ℓ⟩ hℓ b n hb hn hbn τ' σ hτ shearNoise z x t u y ht hu hy
  obtain ⟨Kin', c1, c2, c3⟩ := C48_pairwise_partial ⟨ℓ⟩ hℓ.ne' b n hb hn x t ht
  rw [a1] at c1; cases c1
  refine ⟨Kin, Kcross, μ, a1, a2, c2, fun p hp => ?_, ?_, a6.1, fun p hp c => (a6.2.2 p hp c).1⟩
  · ext i j; exact c3 p hp (obsOf i) _ (mod_lt_of i) (obsOf j) _ (mod_lt_of j)
  · rw [← a4]
    show (noiseOf n τ shearNoise).1.perturbFn _ Kin kw = (noiseOf n τ' shearNoise).1.perturbFn _ Kin
    unfold Noise.perturbFn
    rw [perturb_trial n τ τ' shearNoise kw hkw]

theorem call_trial (k : Kern) (ν : Noise) (σ : ℝ) (sk : ScaleKind) (two : Bool) (kw : Dict Flt) (ℓ : ℝ) (d : Tensor ℝ)
    (h : ((Dict.get? kw "length_scale").map Flt.toReal).getD k.lengthScale = ℓ) :
    (ShearModel.mk k two ν σ sk).call d kw = if two then k.call23 d true false (some ℓ) else k.call33 d true (some ℓ) := by
  unfold ShearModel.call
  subst h
  cases (Dict.get? kw "length_scale").map Flt.toReal <;> rfl

/-- **C87**, training with all three quantities: the objective `optimize` maximises is minus the mean squared leave-one-out error of the
kriging predictions with the trial length scale and noise (targets swapped by hand, as in the repository's tests). -/
theorem C87_objective_partial (k : Kern) (hk : 0 < k.lengthScale) (τ σ ℓ τ' : ℝ) (hℓ : 0 < ℓ) (hτ : 0 < τ') (shearNoise : Bool)
    (sk : ScaleKind) (kw : Dict Flt) (hkw : TrialKw kw k τ ℓ τ') (idx nn : Tensor Int) (X Y : Tensor ℝ) (N b n : Nat) (hb : b ≠ 1)
    (hn : n ≠ 1) (hbn : b ≠ n) (hX : X.shape = [N, 2]) (hY : Y.shape = [N, 3]) (hi : idx.shape = [b]) (hnn : nn.shape = [b, n])
    (hvi : AllValid N idx) (hv : AllValid N nn) :
    ∃ u t T Z, makeTrainTensors .differenceIsotropy .F2 idx nn X Y = .ok (u, t, T, Z) ∧
      shearObjFn ⟨k, false, (noiseOf n τ shearNoise).1, σ, sk⟩ .mse none t u (swapLast Z) T kw =
        .ok (some (-shearMse ℓ id b n (noiseOf n τ' shearNoise).2 (queryAt X N idx) (nbrAt X N nn)
          (fun p => nbrObs 3 n Y fun i => pointOf N (nn.get [p, i])) id fun p c => Y.get [pointOf N (idx.get [p]), c])) := by
  obtain ⟨u, t, T, Z, h1, ht, hu, hZ, hz, hT, hT'⟩ := train_tensors idx nn X Y N b n 3 hX hY hi hnn hvi hv
  obtain ⟨Kout, b1, b2, _⟩ := C48_kout k hk.ne'
  obtain ⟨Kin, Kcross, μ, a1, a2, _, _, a4, a5, a6⟩ := trial_mean k τ σ ℓ τ' hℓ hτ shearNoise Kout
    ((Dict.get? kw "noise").map Flt.toReal) hkw.2 b n hb hn hbn _ _ t u (swapLast Z) ht hu (swapLast_get hZ).1
  refine ⟨u, t, T, Z, h1, ?_⟩
  unfold shearObjFn
  simp only [gp_ok k false _ σ sk Kout b1 b2, call_trial k _ σ sk false kw ℓ _ hkw.1, Bool.false_eq_true, if_false, a1, a2, a4, bind,
    Except.bind, pure, Except.pure, LossKind.raw, if_true, maskColumns, mse_matrix μ T b 3 a5 hT]
  congr 3
  unfold shearMse
  congr 1
  refine Finset.sum_congr rfl fun p hp => Finset.sum_congr rfl fun c _ => ?_
  have hp := Finset.mem_range.1 hp
  rw [a6 p hp c, hT' p hp c c.2, swapped_obs hZ hz p hp]
  rfl

/-! ## the estimated scale -/

/-- The noise added to the covariance. -/
theorem perturbed_cov (n : Nat) (τ : ℝ) (shearNoise : Bool) (b : Nat) (Kin : Tensor ℝ) (h : Kin.shape = [b, 3, n, 3, n]) :
    ∃ P, (noiseOf n τ shearNoise).1.perturb Kin = .ok P ∧ P.shape = [b, 3, n, 3, n] ∧
      ∀ p, Spec.cov5 3 n P p = Spec.cov5 3 n Kin p + (noiseOf n τ shearNoise).2 := by
  cases shearNoise
  · obtain ⟨P, p1, p2, p3⟩ := homoscedastic5 Kin τ h
    refine ⟨P, p1, p2, fun p => ?_⟩
    rw [← matAt_cov5 P p2, p3, matAt_cov5 Kin h]
    rfl
  · obtain ⟨P, p1, p2, p3⟩ := shear5 Kin τ h
    refine ⟨P, p1, p2, fun p => ?_⟩
    rw [← matAt_cov5 P p2, p3, matAt_cov5 Kin h]
    congr 2
    funext i
    have : ((i : Nat) < n) = (obsOf i = 0) := by
      rw [Fin.ext_iff]
      show _ = ((i : Nat) / n = 0)
      have hn0 : 0 < n := lt_of_le_of_lt (Nat.zero_le _) (mod_lt_of i)
      rw [Nat.div_eq_zero_iff_lt hn0]
    simp only [this]

theorem noiseOf_posdef (n : Nat) {τ : ℝ} (hτ : 0 < τ) (shearNoise : Bool) : (noiseOf n τ shearNoise).2.PosDef := by
  cases shearNoise
  · exact PosDef.one.smul hτ
  · exact shearNoiseMat_posdef n hτ

theorem scale_core (k : Kern) (hk : 0 < k.lengthScale) (τ σ : ℝ) (hτ : 0 < τ) (shearNoise : Bool) (sk : ScaleKind) (b n : Nat)
    (hb : b ≠ 1) (hn : n ≠ 1) (x : Nat → Nat → ℝ × ℝ) (t y : Tensor ℝ) (ht : PairwiseDiffs b n x t) (hy : y.shape = [b, 3, n]) :
    shearScale ⟨k, false, (noiseOf n τ shearNoise).1, σ, sk⟩ 1 t y =
      .ok (Spec.scaleEstimate b (fun p => neighbourCov k.lengthScale id n (x p) + (noiseOf n τ shearNoise).2) (Spec.vec3 3 n y)) := by
  obtain ⟨Kin, a1, a2, a3⟩ := C48_pairwise_partial k hk.ne' b n hb hn x t ht
  obtain ⟨P, p1, p2, p3⟩ := perturbed_cov n τ shearNoise b Kin a2
  have hcov : ∀ p < b, Spec.cov5 3 n P p = neighbourCov k.lengthScale id n (x p) + (noiseOf n τ shearNoise).2 := by
    intro p hp
    rw [p3]
    congr 1
    ext i j; exact a3 p hp (obsOf i) _ (mod_lt_of i) (obsOf j) _ (mod_lt_of j)
  have hs := C33_multi_output b 3 n P y p2 hy (fun p hp => by
    rw [hcov p hp]
    exact Kriging.det_ne_zero (Matrix.PosDef.posSemidef_add (neighbourCov_psd _ hk _ _ _) (noiseOf_posdef n hτ shearNoise)))
  have hsame : Spec.scaleEstimate b (Spec.cov5 3 n P) (Spec.vec3 3 n y) =
      Spec.scaleEstimate b (fun p => neighbourCov k.lengthScale id n (x p) + (noiseOf n τ shearNoise).2) (Spec.vec3 3 n y) := by
    unfold Spec.scaleEstimate
    congr 1
    exact Finset.sum_congr rfl fun p hp => by rw [hcov p (Finset.mem_range.1 hp)]
  unfold shearScale
  have hc : (ShearModel.mk k false (noiseOf n τ shearNoise).1 σ sk).call t [] = .ok Kin := a1
  simp only [hc, bind, Except.bind]
  unfold analyticOpt
  rw [p1]
  simp only [bind, Except.bind, hs]
  rw [hsame]
  rfl

/-- **C87**, the scale: with targets swapped by hand, `optimize_scale` of a model with `AnalyticScale` stores the documented
estimate `1/(3 n b) Σ_p wᵀ K⁻¹ w` under the covariance of the derivatives of the potential. -/
theorem C87_scale_partial (k : Kern) (hk : 0 < k.lengthScale) (τ σ : ℝ) (hτ : 0 < τ) (shearNoise : Bool) (sk : ScaleKind)
    (idx nn : Tensor Int) (X Y : Tensor ℝ) (N b n : Nat) (hb : b ≠ 1) (hn : n ≠ 1) (hX : X.shape = [N, 2]) (hY : Y.shape = [N, 3])
    (hi : idx.shape = [b]) (hnn : nn.shape = [b, n]) (hvi : AllValid N idx) (hv : AllValid N nn) :
    ∃ u t T Z, makeTrainTensors .differenceIsotropy .F2 idx nn X Y = .ok (u, t, T, Z) ∧
      shearScale ⟨k, false, (noiseOf n τ shearNoise).1, σ, sk⟩ 1 t (swapLast Z) =
        .ok (Spec.scaleEstimate b (fun p => neighbourCov k.lengthScale id n (nbrAt X N nn p) + (noiseOf n τ shearNoise).2)
          fun p => nbrObs 3 n Y fun i => pointOf N (nn.get [p, i])) := by
  obtain ⟨u, t, T, Z, h1, ht, _, hZ, hz, _⟩ := train_tensors idx nn X Y N b n 3 hX hY hi hnn hvi hv
  refine ⟨u, t, T, Z, h1, ?_⟩
  rw [scale_core k hk τ σ hτ shearNoise sk b n hb hn _ t _ ht (swapLast_get hZ).1]
  congr 1
  unfold Spec.scaleEstimate
  congr 1
  exact Finset.sum_congr rfl fun p hp => by rw [swapped_obs hZ hz p (Finset.mem_range.1 hp)]

theorem analyticScale_flat (K : Tensor ℝ) (s s' : List Nat) (f : Nat → ℝ) (h : s.prod = s'.prod) :
    analyticScale K ⟨s, f⟩ = analyticScale K ⟨s', f⟩ := by
  unfold analyticScale
  simp only [Tensor.reshape, h]

/-- **C87 is false of the scale estimated from the library's own tensors**, silently: with the targets as `make_train_tensors` returns
them, entry `i` of the observation vector of neighbourhood `p` is the observation of quantity `i % 3` at neighbour `i / 3`, while row `i`
of the covariance belongs to quantity `i / n` at neighbour `i % n`. -/
theorem C87_scale_silent (k : Kern) (hk : 0 < k.lengthScale) (τ σ : ℝ) (hτ : 0 < τ) (shearNoise : Bool) (sk : ScaleKind)
    (idx nn : Tensor Int) (X Y : Tensor ℝ) (N b n : Nat) (hb : b ≠ 1) (hn : n ≠ 1) (hX : X.shape = [N, 2]) (hY : Y.shape = [N, 3])
    (hi : idx.shape = [b]) (hnn : nn.shape = [b, n]) (hvi : AllValid N idx) (hv : AllValid N nn) :
    ∃ u t T Z, makeTrainTensors .differenceIsotropy .F2 idx nn X Y = .ok (u, t, T, Z) ∧
      shearScale ⟨k, false, (noiseOf n τ shearNoise).1, σ, sk⟩ 1 t Z =
        .ok (Spec.scaleEstimate b (fun p => neighbourCov k.lengthScale id n (nbrAt X N nn p) + (noiseOf n τ shearNoise).2)
          fun p i => Y.get [pointOf N (nn.get [p, (i : Nat) / 3]), (i : Nat) % 3]) := by
  obtain ⟨u, t, T, Z, h1, ht, _, hZ, hz, _⟩ := train_tensors idx nn X Y N b n 3 hX hY hi hnn hvi hv
  refine ⟨u, t, T, Z, h1, ?_⟩
  have e : ∀ m : ShearModel, shearScale m 1 t Z = shearScale m 1 t ⟨[b, 3, n], Z.flat⟩ := by
    intro m
    unfold shearScale analyticOpt
    have : ∀ K, analyticScale K Z = analyticScale K ⟨[b, 3, n], Z.flat⟩ := fun K => by
      have := analyticScale_flat K Z.shape [b, 3, n] Z.flat (by rw [hZ]; simp only [List.prod_cons, List.prod_nil]; ring)
      exact this
    simp only [this]
  rw [e, scale_core k hk τ σ hτ shearNoise sk b n hb hn _ t _ ht rfl]
  congr 1
  unfold Spec.scaleEstimate
  congr 1
  refine Finset.sum_congr rfl fun p hp => ?_
  have hp := Finset.mem_range.1 hp
  congr 1
  funext i
  have hn0 : 0 < n := lt_of_le_of_lt (Nat.zero_le _) (mod_lt_of i)
  have hi3 : (i : Nat) / 3 < n := by have := i.2; omega
  refine Eq.trans ?_ (hz p hp _ hi3 ((i : Nat) % 3) (Nat.mod_lt _ (by omega)))
  unfold Spec.vec3
  rw [get3 Z hZ, get3 (⟨[b, 3, n], Z.flat⟩ : Tensor ℝ) rfl]
  show Z.flat _ = Z.flat _
  congr 1
  have e1 := Nat.div_add_mod (i : Nat) n
  have e2 := Nat.div_add_mod (i : Nat) 3
  have e3 : (i : Nat) / n * n = n * ((i : Nat) / n) := Nat.mul_comm _ _
  have e4 : p * (3 * n) = p * (n * 3) := by ring
  rw [e4]
  omega

end Shear
end MuyGPyS
