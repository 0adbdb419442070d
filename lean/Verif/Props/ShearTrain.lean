import Verif.Props.ShearWorkflow

/-! # C87: training shear models with variance losses, and with two observed quantities -/

namespace MuyGPyS
namespace Shear
open Py Py.Tensor Matrix

theorem cov_same (ℓ : ℝ) (hℓ : 0 < ℓ) (a c : Fin 3) (s : ℝ × ℝ) :
    covariance ℓ a c s s = if a = c then (if a = 0 then 2 else 1) / ℓ ^ 2 else 0 := by
  obtain ⟨T, _, _, _, h1, h2⟩ := C48_kout ⟨ℓ⟩ hℓ.ne'
  rw [← h1 a c s, h2]

theorem priorCov_diag (ℓ : ℝ) (hℓ : 0 < ℓ) (z : ℝ × ℝ) :
    priorCov ℓ z = Matrix.diagonal fun a : Fin 3 => (if a = 0 then 2 else 1) / ℓ ^ 2 := by
  ext a c
  simp only [priorCov, Matrix.of_apply, cov_same ℓ hℓ, Matrix.diagonal_apply]

theorem priorCov_posdef (ℓ : ℝ) (hℓ : 0 < ℓ) (z : ℝ × ℝ) : (priorCov ℓ z).PosDef := by
  rw [priorCov_diag ℓ hℓ z]
  refine Matrix.PosDef.diagonal fun a => ?_
  split <;> positivity

/-- Joint covariance of the neighbours' quantities (without noise) and the three quantities at the query. -/
noncomputable def jointCov {o : Nat} (ℓ : ℝ) (obs : Fin o → Fin 3) (n : Nat) (x : Nat → ℝ × ℝ) (z : ℝ × ℝ) :
    Matrix (Fin (o * n) ⊕ Fin 3) (Fin (o * n) ⊕ Fin 3) ℝ :=
  fromBlocks (neighbourCov ℓ obs n x) (queryCov ℓ obs n x z) (queryCov ℓ obs n x z)ᴴ (priorCov ℓ z)

theorem jointCov_psd {o : Nat} (ℓ : ℝ) (hℓ : 0 < ℓ) (obs : Fin o → Fin 3) (n : Nat) (x : Nat → ℝ × ℝ) (z : ℝ × ℝ) :
    (jointCov ℓ obs n x z).PosSemidef := by
  have hJ := covariance_psd ℓ hℓ (fun i : Fin (o * n) ⊕ Fin 3 => Sum.elim (fun i => obs (obsOf i)) id i)
    (fun i => Sum.elim (fun i : Fin (o * n) => x (i % n)) (fun _ => z) i)
  convert hJ using 1
  ext i j
  rcases i with i | i <;> rcases j with j | j
  · simp [jointCov, neighbourCov]
  · simp [jointCov, queryCov]
  · simp only [jointCov, Matrix.of_apply, Sum.elim_inr, Sum.elim_inl, id, fromBlocks_apply₂₁, conjTranspose_apply, queryCov, star_trivial]
    rw [(C48_symmetric ℓ hℓ.ne' _ _ _ _).1, (C48_symmetric ℓ hℓ.ne' _ _ _ _).2.1]
  · simp [jointCov, priorCov]

/-- With noise the posterior covariance is positive definite. -/
theorem posterior_posdef {o : Nat} (ℓ : ℝ) (hℓ : 0 < ℓ) (obs : Fin o → Fin 3) (n : Nat) (x : Nat → ℝ × ℝ) (z : ℝ × ℝ)
    (N : Matrix (Fin (o * n)) (Fin (o * n)) ℝ) (hN : N.PosDef) :
    (Spec.krigingCov (priorCov ℓ z) (neighbourCov ℓ obs n x + N) (queryCov ℓ obs n x z)).PosDef := by
  have hA : (neighbourCov ℓ obs n x + N).PosDef := Matrix.PosDef.posSemidef_add (neighbourCov_psd ℓ hℓ obs n x) hN
  have hS := posterior_psd ℓ hℓ obs n x z N hN
  refine .of_dotProduct_mulVec_pos hS.1 fun {y} hy => ?_
  haveI := hA.isUnit.invertible
  set A := neighbourCov ℓ obs n x + N with hAdef
  set B := queryCov ℓ obs n x z with hB
  set D := priorCov ℓ z with hD
  have hkey : star y ⬝ᵥ ((D - Bᴴ * A⁻¹ * B) *ᵥ y) =
      star (Sum.elim (-((A⁻¹ * B) *ᵥ y)) y) ⬝ᵥ (fromBlocks A B Bᴴ D *ᵥ Sum.elim (-((A⁻¹ * B) *ᵥ y)) y) := by
    rw [dotProduct_mulVec, dotProduct_mulVec, schur_complement_eq₁₁ B D _ _ hA.1, neg_add_cancel, dotProduct_zero, zero_add]
  have hgoal : Spec.krigingCov D A B = D - Bᴴ * A⁻¹ * B := rfl
  rw [hgoal, hkey]
  set u := -((A⁻¹ * B) *ᵥ y) with hu
  have hsplit : fromBlocks A B Bᴴ D = jointCov ℓ obs n x z + fromBlocks N 0 0 0 := by
    unfold jointCov
    rw [fromBlocks_add]
    simp [hAdef, hB, hD]
  have hNq : star (Sum.elim u y) ⬝ᵥ (fromBlocks N 0 0 (0 : Matrix (Fin 3) (Fin 3) ℝ) *ᵥ Sum.elim u y) = star u ⬝ᵥ (N *ᵥ u) := by
    rw [fromBlocks_mulVec]
    simp [dotProduct, Fintype.sum_sum_type]
  by_cases hu0 : u = 0
  · rw [hu0]
    have : star (Sum.elim (0 : Fin (o * n) → ℝ) y) ⬝ᵥ (fromBlocks A B Bᴴ D *ᵥ Sum.elim 0 y) = star y ⬝ᵥ (D *ᵥ y) := by
      rw [fromBlocks_mulVec]
      simp [dotProduct, Fintype.sum_sum_type]
    rw [this]
    exact (priorCov_posdef ℓ hℓ z).dotProduct_mulVec_pos hy
  · rw [hsplit, add_mulVec, dotProduct_add, hNq]
    have h1 := (jointCov_psd ℓ hℓ obs n x z).dotProduct_mulVec_nonneg (Sum.elim u y)
    have h2 := hN.dotProduct_mulVec_pos hu0
    exact add_pos_of_nonneg_of_pos h1 h2

/-- The posterior covariances a trial sees (without the variance scale), for the stored length scale. -/
theorem trial_variance (k : Kern) (hk : 0 < k.lengthScale) (τ σ τ' : ℝ) (hτ : 0 < τ') (shearNoise : Bool) (Kout Kin Kcross : Tensor ℝ)
    (kw : Option ℝ) (hkw : kw.getD τ = τ') (b n : Nat) (hb : b ≠ 1) (hn : n ≠ 1) (hbn : b ≠ n) (z : Nat → ℝ × ℝ)
    (x : Nat → Nat → ℝ × ℝ) (t u : Tensor ℝ) (ht : PairwiseDiffs b n x t) (hu : CrosswiseDiffs b n z x u) (hO : k.kout = .ok Kout)
    (hK : k.call33 t = .ok Kin) (hC : k.call33 u = .ok Kcross) :
    ∃ W, (MuyGPS.make (noiseOf n τ shearNoise).1 Kout σ).optVariance Kin Kcross kw = .ok W ∧ W.shape = [b, 3, 3] ∧
      ∀ p < b, Spec.cov 3 W p = Spec.krigingCov (priorCov k.lengthScale (z p))
        (neighbourCov k.lengthScale id n (x p) + (noiseOf n τ' shearNoise).2) (queryCov k.lengthScale id n (x p) (z p)) := by
  obtain ⟨Kin', Kcross', Kout', μ, V, a1, a2, a3, _, a5, a6⟩ := C48_predict_partial k hk b n hb hn hbn τ' 1 hτ shearNoise z x t u
    ⟨[b, 3, n], fun _ => 0⟩ ht hu rfl
  rw [hK] at a1; cases a1
  rw [hC] at a2; cases a2
  rw [hO] at a3; cases a3
  have e : (MuyGPS.make (noiseOf n τ shearNoise).1 Kout σ).optVariance Kin Kcross kw =
      (MuyGPS.make (noiseOf n τ' shearNoise).1 Kout 1).optVariance Kin Kcross := by
    show (noiseOf n τ shearNoise).1.perturbFn _ Kin kw = (noiseOf n τ' shearNoise).1.perturbFn _ Kin
    unfold Noise.perturbFn
    rw [perturb_trial n τ τ' shearNoise kw hkw]
    rfl
  unfold MuyGPS.posteriorVariance at a5
  rw [e]
  cases hW : (MuyGPS.make (noiseOf n τ' shearNoise).1 Kout 1).optVariance Kin Kcross with
  | error e => rw [hW] at a5; cases a5
  | ok W =>
    rw [hW] at a5
    have hV : V = W.map fun x => 1 * x := (Except.ok.inj a5).symm
    have hWV : W = V := by
      rw [hV]
      unfold Tensor.map
      simp
    subst hWV
    refine ⟨W, rfl, a6.2.1, fun p hp => ?_⟩
    ext c c'
    have := (a6.2.2 p hp c).2 c'
    rw [one_mul] at this
    exact this

/-- The residuals and covariances the leave-one-out likelihood is about. -/
noncomputable def loolItems (ℓ : ℝ) (b n : Nat) (N : Matrix (Fin (3 * n)) (Fin (3 * n)) ℝ) (z : Nat → ℝ × ℝ)
    (x : Nat → Nat → ℝ × ℝ) (w : Nat → Fin (3 * n) → ℝ) (truth : Nat → Fin 3 → ℝ) : List (Loss.Item 3) :=
  (List.range b).map fun p => (fun c =>
    Spec.krigingMean (neighbourCov ℓ id n (x p) + N) (fun i => queryCov ℓ id n (x p) (z p) i c) (w p) - truth p c,
    Spec.krigingCov (priorCov ℓ (z p)) (neighbourCov ℓ id n (x p) + N) (queryCov ℓ id n (x p) (z p)))

/-- **C87 is false of the leave-one-out likelihood.** For every training data, non-empty batch and positive scale the objective of a shear
model with `lool_fn` is strictly below minus the documented likelihood loss of its own predictions (already at the stored length
scale; C39). -/
theorem C87_lool_fails (k : Kern) (hk : 0 < k.lengthScale) (τ σ τ' : ℝ) (hσ : 0 < σ) (hτ : 0 < τ') (shearNoise : Bool)
    (kw : Dict Flt) (hkw : TrialKw kw k τ k.lengthScale τ') (idx nn : Tensor Int) (X Y : Tensor ℝ) (N b n : Nat) (hb : 1 < b)
    (hn : n ≠ 1) (hbn : b ≠ n) (hX : X.shape = [N, 2]) (hY : Y.shape = [N, 3]) (hi : idx.shape = [b]) (hnn : nn.shape = [b, n])
    (hvi : AllValid N idx) (hv : AllValid N nn) :
    ∃ u t T Z, makeTrainTensors .differenceIsotropy .F2 idx nn X Y = .ok (u, t, T, Z) ∧
      ∃ L, shearObjFn ⟨k, false, (noiseOf n τ shearNoise).1, σ, .fixed⟩ .lool none t u (swapLast Z) T kw = .ok (some (-L)) ∧
        Loss.docLoolMulti (loolItems k.lengthScale b n (noiseOf n τ' shearNoise).2 (queryAt X N idx) (nbrAt X N nn)
          (fun p => nbrObs 3 n Y fun i => pointOf N (nn.get [p, i])) fun p c => Y.get [pointOf N (idx.get [p]), c]) σ < L := by
  obtain ⟨u, t, T, Z, h1, ht, hu, hZ, hz, hT, hT'⟩ := train_tensors idx nn X Y N b n 3 hX hY hi hnn hvi hv
  obtain ⟨Kout, b1, b2, _⟩ := C48_kout k hk.ne'
  obtain ⟨Kin, Kcross, μ, a1, a2, _, _, a4, a5, a6⟩ := trial_mean k τ σ k.lengthScale τ' hk hτ shearNoise Kout
    ((Dict.get? kw "noise").map Flt.toReal) hkw.2 b n (by omega) hn hbn _ _ t u (swapLast Z) ht hu (swapLast_get hZ).1
  obtain ⟨W, w1, w2, w3⟩ := trial_variance k hk τ σ τ' hτ shearNoise Kout Kin Kcross ((Dict.get? kw "noise").map Flt.toReal) hkw.2
    b n (by omega) hn hbn _ _ t u ht hu b1 a1 a2
  set items := loolItems k.lengthScale b n (noiseOf n τ' shearNoise).2 (queryAt X N idx) (nbrAt X N nn)
    (fun p => nbrObs 3 n Y fun i => pointOf N (nn.get [p, i])) fun p c => Y.get [pointOf N (idx.get [p]), c] with hitems
  obtain ⟨L, l1, l2⟩ := Loss.C39_never_documented_value items (by
    intro h
    have := congrArg List.length h
    rw [hitems] at this
    simp [loolItems] at this
    omega) σ hσ (by
    intro it hit
    rw [hitems] at hit
    obtain ⟨p, _, rfl⟩ := List.mem_map.1 hit
    exact posterior_posdef _ hk _ _ _ _ _ (noiseOf_posdef n hτ shearNoise))
  refine ⟨u, t, T, Z, h1, L, ?_, l2⟩
  have hrun : shearRunVar .lool none μ T W (some σ) = .ok (some L) := by
    unfold shearRunVar
    rw [a5, w2]
    simp only [hT, and_self, if_true]
    have : ((List.range b).map fun p =>
        ((fun c : Fin 3 => μ.get [p, c] - T.get [p, c], fun c c' => W.get [p, c, c']) : Loss.Item 3)) = items := by
      rw [hitems]
      unfold loolItems
      refine List.map_congr_left fun p hp => ?_
      have hp := List.mem_range.1 hp
      refine Prod.ext ?_ ?_
      · funext c
        show μ.get [p, c] - T.get [p, c] = _
        rw [a6 p hp c, hT' p hp c c.2, swapped_obs hZ hz p hp]
      · exact w3 p hp
    rw [this, l1]
    rfl
  unfold shearObjFn
  simp only [gp_ok k false _ σ .fixed Kout b1 b2, call_trial k _ σ .fixed false kw k.lengthScale _ hkw.1, Bool.false_eq_true, if_false,
    a1, a2, a4, bind, Except.bind, pure, Except.pure, LossKind.raw, maskColumns, scaleOptFn, w1]
  have : (MuyGPS.make (noiseOf n τ shearNoise).1 Kout σ).scale = σ := rfl
  rw [this, hrun]
  rfl

/-- … and with a `target_mask` of another length than the batch, or with the robust likelihood, it raises. -/
theorem C87_masked_lool_raises (k : Kern) (hk : 0 < k.lengthScale) (τ σ τ' : ℝ) (hτ : 0 < τ') (shearNoise : Bool)
    (kw : Dict Flt) (hkw : TrialKw kw k τ k.lengthScale τ') (idx nn : Tensor Int) (X Y : Tensor ℝ) (N b n : Nat) (hb : 1 < b)
    (hn : n ≠ 1) (hbn : b ≠ n) (hX : X.shape = [N, 2]) (hY : Y.shape = [N, 3]) (hi : idx.shape = [b]) (hnn : nn.shape = [b, n])
    (hvi : AllValid N idx) (hv : AllValid N nn) (mask : List Nat) (hm : ∀ c ∈ mask, c < 3) (hmb : b ≠ mask.length) (δ : ℝ) :
    ∃ u t T Z, makeTrainTensors .differenceIsotropy .F2 idx nn X Y = .ok (u, t, T, Z) ∧ ∀ targets,
      shearObjFn ⟨k, false, (noiseOf n τ shearNoise).1, σ, .fixed⟩ .lool (some mask) t u (swapLast Z) targets kw = .error .linAlg ∧
      shearObjFn ⟨k, false, (noiseOf n τ shearNoise).1, σ, .fixed⟩ (.looph δ) (some mask) t u (swapLast Z) targets kw = .error .value ∧
      shearObjFn ⟨k, false, (noiseOf n τ shearNoise).1, σ, .fixed⟩ (.looph δ) none t u (swapLast Z) targets kw = .error .value := by
  obtain ⟨u, t, T, Z, h1, ht, hu, hZ, hz, hT, hT'⟩ := train_tensors idx nn X Y N b n 3 hX hY hi hnn hvi hv
  obtain ⟨Kout, b1, b2, _⟩ := C48_kout k hk.ne'
  obtain ⟨Kin, Kcross, μ, a1, a2, _, _, a4, a5, a6⟩ := trial_mean k τ σ k.lengthScale τ' hk hτ shearNoise Kout
    ((Dict.get? kw "noise").map Flt.toReal) hkw.2 b n (by omega) hn hbn _ _ t u (swapLast Z) ht hu (swapLast_get hZ).1
  obtain ⟨W, w1, w2, w3⟩ := trial_variance k hk τ σ τ' hτ shearNoise Kout Kin Kcross ((Dict.get? kw "noise").map Flt.toReal) hkw.2
    b n (by omega) hn hbn _ _ t u ht hu b1 a1 a2
  refine ⟨u, t, T, Z, h1, fun targets => ⟨?_, ?_, ?_⟩⟩
  all_goals
    unfold shearObjFn
    simp only [gp_ok k false _ σ .fixed Kout b1 b2, call_trial k _ σ .fixed false kw k.lengthScale _ hkw.1, Bool.false_eq_true, if_false,
      a1, a2, a4, bind, Except.bind, pure, Except.pure, LossKind.raw, maskColumns, a5, scaleOptFn, w1, if_pos hm, shearRunVar, w2,
      List.headD_cons, if_neg hmb]

/-- **C87**, training on the two shears: with `target_mask = [1, 2]` the objective is minus the mean squared leave-one-out error of the
predicted shears, again for targets swapped by hand. -/
theorem C87_objective_two_partial (k : Kern) (hk : 0 < k.lengthScale) (τ σ ℓ τ' : ℝ) (hℓ : 0 < ℓ) (hτ : 0 < τ')
    (sk : ScaleKind) (kw : Dict Flt) (hkw : TrialKw kw k τ ℓ τ') (idx nn : Tensor Int) (X Y : Tensor ℝ) (N b n : Nat) (hb : b ≠ 1)
    (hn : n ≠ 1) (hbn : b ≠ n) (hX : X.shape = [N, 2]) (hY : Y.shape = [N, 2]) (hi : idx.shape = [b]) (hnn : nn.shape = [b, n])
    (hvi : AllValid N idx) (hv : AllValid N nn) :
    ∃ u t T Z, makeTrainTensors .differenceIsotropy .F2 idx nn X Y = .ok (u, t, T, Z) ∧
      shearObjFn ⟨k, true, .homoscedastic τ, σ, sk⟩ .mse (some [1, 2]) t u (swapLast Z) T kw =
        .ok (some (-shearMse ℓ Fin.succ b n (τ' • 1) (queryAt X N idx) (nbrAt X N nn)
          (fun p => nbrObs 2 n Y fun i => pointOf N (nn.get [p, i])) Fin.succ fun p c => Y.get [pointOf N (idx.get [p]), c])) := by
  obtain ⟨u, t, T, Z, h1, ht, hu, hZ, hz, hT, hT'⟩ := train_tensors idx nn X Y N b n 2 hX hY hi hnn hvi hv
  obtain ⟨Kout, b1, b2, _⟩ := C48_kout k hk.ne'
  obtain ⟨Kin, Kcross, Kout', μ, V, a1, a2, _, a4, _, a6⟩ := C48_predict_two_partial ⟨ℓ⟩ hℓ b n hb hn hbn τ' σ hτ _ _ t u (swapLast Z) ht hu
    (swapLast_get hZ).1
  have a4' : (MuyGPS.make (.homoscedastic τ) Kout σ).optMean Kin Kcross (swapLast Z) ((Dict.get? kw "noise").map Flt.toReal) = .ok μ := by
    rw [← a4]
    show (Noise.homoscedastic τ).perturbFn _ Kin _ = (Noise.homoscedastic τ').perturbFn _ Kin
    unfold Noise.perturbFn
    have := perturb_trial n τ τ' false ((Dict.get? kw "noise").map Flt.toReal) hkw.2 Kin
    have this : (Noise.homoscedastic τ).perturb Kin ((Dict.get? kw "noise").map Flt.toReal) = (Noise.homoscedastic τ').perturb Kin := this
    rw [this]
  have a1' : k.call23 t true false (some ℓ) = .ok Kin := a1
  have a2' : k.call23 u true false (some ℓ) = .ok Kcross := a2
  refine ⟨u, t, T, Z, h1, ?_⟩
  have hm : ∀ c ∈ [1, 2], c < 3 := by simp
  unfold shearObjFn
  simp only [gp_ok k true _ σ sk Kout b1 b2, call_trial k _ σ sk true kw ℓ _ hkw.1, if_true, a1', a2', a4', bind,
    Except.bind, pure, Except.pure, LossKind.raw, maskColumns, a6.1, if_pos hm]
  rw [mse_matrix _ T b 2 rfl hT]
  simp only
  congr 3
  unfold shearMse
  congr 1
  refine Finset.sum_congr rfl fun p hp => Finset.sum_congr rfl fun c _ => ?_
  have hp := Finset.mem_range.1 hp
  have hc : (Tensor.ofFn [b, [1, 2].length] fun i => μ.get [i.getD 0 0, [1, 2].getD (i.getD 1 0) 0]).get [p, c] = μ.get [p, (Fin.succ c : Fin 3)] := by
    refine (get_ofFn [b, 2] (fun i => μ.get [i.getD 0 0, [1, 2].getD (i.getD 1 0) 0]) _ (.cons hp (.cons c.2 .nil))).trans ?_
    fin_cases c <;> rfl
  rw [hc, (a6.2.2 p hp _).1, hT' p hp c c.2, swapped_obs hZ hz p hp]

end Shear
end MuyGPyS
