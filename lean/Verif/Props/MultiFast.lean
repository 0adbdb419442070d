import Verif.Props.Multivariate
import Verif.Props.Objective

/-! # C47: multi-output fast prediction -/

namespace MuyGPyS
open Py Matrix

/-- **What the multi-output fast coefficients are**: whenever the call succeeds, all coefficients are
zero (of the documented shape). -/
theorem C47_coefficients_actual (bessel : Flt → ℝ → ℝ) (models : List Trainee) (t n r : Nat) (pd y C : Tensor ℝ)
    (hy : y.shape = [t, n, r]) (h : multiFastCoefficients bessel models pd y = .ok C) :
    C.shape = [t, n, r] ∧ ∀ k, C.flat k = 0 := by
  unfold multiFastCoefficients at h
  rw [hy] at h
  simp only [bind, Except.bind, pure, Except.pure] at h
  split at h
  · cases h
  · obtain rfl := Except.ok.inj h
    exact ⟨rfl, fun _ => rfl⟩

/-- **What the multi-output fast posterior mean is**: whenever the call succeeds, all predictions are
zero, whatever the coefficients. -/
theorem C47_mean_actual (bessel : Flt → ℝ → ℝ) (models : List Trainee) (b n r : Nat) (cd coeffs T : Tensor ℝ)
    (hc : coeffs.shape = [b, n, r]) (h : multiFastPosteriorMean bessel models cd coeffs = .ok T) :
    T.shape = [b, r] ∧ ∀ k, T.flat k = 0 := by
  unfold multiFastPosteriorMean mmFastPosteriorMean at h
  simp only [bind, Except.bind] at h
  split at h
  · cases h
  · rw [if_pos (show (zeros coeffs.shape).shape = coeffs.shape from rfl), hc] at h
    obtain rfl := Except.ok.inj h
    refine ⟨rfl, fun k => ?_⟩
    show ((List.range n).map fun j => (zeros [b, n, r]).get _ * _).sum = 0
    have : ∀ idx, (zeros [b, n, r]).get idx = 0 := fun _ => rfl
    simp [this]

/-- **C47 fails**: wherever a univariate model has a non-zero fast coefficient, the multi-output model
differs. -/
theorem C47_fails (bessel : Flt → ℝ → ℝ) (models : List Trainee) (t n r : Nat) (pd y C : Tensor ℝ)
    (hy : y.shape = [t, n, r]) (h : multiFastCoefficients bessel models pd y = .ok C)
    (c : Nat) (T : Trainee) (_hT : models[c]? = some T) (co : Tensor ℝ)
    (_hco : univariateCoefficients bessel T.R pd (targetColumn y c) = .ok co)
    (i j : Nat) (hne : co.get [i, j] ≠ 0) : C.get [i, j, c] ≠ co.get [i, j] := by
  have := (C47_coefficients_actual bessel models t n r pd y C hy h).2 (Tensor.ravel C.shape [i, j, c])
  intro e
  exact hne (by rw [← e]; exact this)

theorem fastPrecompute_zero (Kin y C : Tensor ℝ) {t n : Nat} (hy : y.shape = [t, n]) (h0 : ∀ k, y.flat k = 0)
    (h : fastPrecompute Kin y = .ok C) : ∀ k, C.flat k = 0 := by
  unfold fastPrecompute at h
  rw [hy] at h
  simp only [bind, Except.bind, Tensor.solve] at h
  split_ifs at h
  · obtain rfl := Except.ok.inj h
    intro k
    show (Tensor.ofMats [t] n 1 fun p => (Kin.matAt n n p)⁻¹ * (⟨[t, n, 1], y.flat⟩ : Tensor ℝ).matAt n 1 p).flat k = 0
    have hz : ∀ p, (⟨[t, n, 1], y.flat⟩ : Tensor ℝ).matAt n 1 p = 0 := by
      intro p; ext i j; exact h0 _
    simp only [hz, Matrix.mul_zero, Tensor.ofMats]
    split_ifs <;> rfl

/-- **C47 holds for zero targets only**: the coefficients agree with those of the univariate models when all
targets are zero. -/
theorem C47_zero_targets_partial (bessel : Flt → ℝ → ℝ) (models : List Trainee) (t n r : Nat) (pd y C : Tensor ℝ)
    (hy : y.shape = [t, n, r]) (h0 : ∀ k, y.flat k = 0) (h : multiFastCoefficients bessel models pd y = .ok C)
    (c : Nat) (hc : c < r) (T : Trainee) (_hT : models[c]? = some T) (co : Tensor ℝ)
    (hco : univariateCoefficients bessel T.R pd (targetColumn y c) = .ok co) (i j : Nat) :
    C.get [i, j, c] = co.get [i, j] := by
  have h1 := (C47_coefficients_actual bessel models t n r pd y C hy h).2 (Tensor.ravel C.shape [i, j, c])
  unfold univariateCoefficients MuyGPS.fastCoefficients Noise.perturbFn at hco
  simp only [bind, Except.bind] at hco
  split at hco
  · cases hco
  · split at hco
    · cases hco
    · have e := (targetColumn_eq t n r c y hy hc).2
      have := fastPrecompute_zero _ _ _ (t := t) (n := n) (by rw [e]) (by rw [e]; intro k; exact h0 _) hco
        (Tensor.ravel co.shape [i, j])
      show C.flat _ = co.flat _
      rw [h1, this]

/-- **C47 fails, witness**: one output, two points with two (coinciding) neighbours each, unit noise, all
targets one. The univariate coefficients are `1/3`, the multi-output ones `0`; so is every fast
prediction. -/
theorem C47_witness (bessel : Flt → ℝ → ℝ) :
    let models := [noisyModel 1]
    let pd : Tensor ℝ := ⟨[2, 2, 2], fun _ => 0⟩
    let y : Tensor ℝ := ⟨[2, 2, 1], fun _ => 1⟩
    ∃ C co, multiFastCoefficients bessel models pd y = .ok C ∧
      univariateCoefficients bessel (noisyModel 1).R pd (targetColumn y 0) = .ok co ∧ co.shape = [2, 2] ∧
      C.get [0, 0, 0] = 0 ∧ co.get [0, 0] = 1 / 3 := by
  intro models pd y
  have hun : Unreserved [] := fun a ha => by simp at ha
  have hk : (noisyModel 1).R.kernel.call bessel pd [] = .ok ⟨[2, 2, 2], fun _ => 1⟩ :=
    noisy_kernel bessel 1 [2, 2, 2] [] hun rfl
  obtain ⟨s1, s2⟩ := targetColumn_eq 2 2 1 0 y rfl (by omega)
  set K : Tensor ℝ := ⟨[2, 2, 2], fun _ => 1⟩
  have hν : (noisyModel 1).R.gp.noise = .homoscedastic 1 := rfl
  obtain ⟨P, p1, p2, p3⟩ := (noisyModel 1).R.gp.noise.perturb_cov (b := 2) (n := 2) trivial K rfl
  obtain ⟨P', q1, q2, q3⟩ := (noisyModel 1).R.gp.noise.perturb_cov (b := 2) (n := 2) trivial P p2
  have hcK : ∀ p, Spec.cov 2 K p = !![1, 1; 1, 1] := by
    intro p; ext i j; fin_cases i <;> fin_cases j <;> rfl
  have hm : (noisyModel 1).R.gp.noise.mat 2 0 = 1 ∧ (noisyModel 1).R.gp.noise.mat 2 1 = 1 := by
    constructor <;> · ext i j; fin_cases i <;> fin_cases j <;> simp [hν, Noise.mat]
  have hmp : ∀ p, (noisyModel 1).R.gp.noise.mat 2 p = 1 := by
    intro p; ext i j; fin_cases i <;> fin_cases j <;> simp [hν, Noise.mat]
  have hcP : ∀ p, Spec.cov 2 P p = !![2, 1; 1, 2] := by
    intro p; rw [p3, hcK, hmp]; ext i j; fin_cases i <;> fin_cases j <;> simp <;> norm_num
  have hcP' : ∀ p, Spec.cov 2 P' p = !![3, 1; 1, 3] := by
    intro p; rw [q3, hcP, hmp]; ext i j; fin_cases i <;> fin_cases j <;> simp <;> norm_num
  obtain ⟨co, c1, c2, c3⟩ := fastPrecompute_single P ⟨[2, 2], fun k => y.flat (k * 1 + 0)⟩ p2 rfl
    (fun p _ => by rw [hcP, det_fin_two]; norm_num)
  obtain ⟨co', d1, d2, d3⟩ := fastPrecompute_single P' ⟨[2, 2], fun k => y.flat (k * 1 + 0)⟩ q2 rfl
    (fun p _ => by rw [hcP', det_fin_two]; norm_num)
  have hfc : (noisyModel 1).R.gp.fastCoefficients K ⟨[2, 2], fun k => y.flat (k * 1 + 0)⟩ = .ok co := by
    unfold MuyGPS.fastCoefficients Noise.perturbFn; rw [p1]; exact c1
  have hfc' : (noisyModel 1).R.gp.fastCoefficients P ⟨[2, 2], fun k => y.flat (k * 1 + 0)⟩ = .ok co' := by
    unfold MuyGPS.fastCoefficients Noise.perturbFn; rw [q1]; exact d1
  have hcos : co.shape = [2, 2] := by rw [c2]; decide
  have hcos' : co'.shape = [2, 2] := by rw [d2]; decide
  refine ⟨zeros [2, 2, 1], co, ?_, ?_, hcos, rfl, ?_⟩
  · have hy' : y.shape = [2, 2, 1] := rfl
    unfold multiFastCoefficients
    rw [hy']
    simp only [models, List.zipIdx_cons, List.zipIdx_nil]
    simp only [List.foldlM_cons, List.foldlM_nil, hk, p1, s1, hfc', bind, Except.bind, pure, Except.pure]
    simp [assignLastDropped, zeros, broadcastsTo2, hcos']
  · unfold univariateCoefficients
    rw [hk, s2]
    exact hfc
  · rw [Tensor.get2 co hcos]
    have := c3 0 0
    simp only [Nat.zero_mul, Fin.val_zero, Nat.zero_add] at this
    rw [Nat.zero_mul, Nat.zero_add, this, hcP, Matrix.inv_def, det_fin_two, adjugate_fin_two]
    simp [Matrix.mulVec, dotProduct, Fin.sum_univ_two, Spec.vec, Tensor.get, y]
    norm_num

/-- A case that meets the hypotheses of `C46_scale` and `C46_scale_then_variance`: two outputs with noise one
and three, one neighbour at distance zero, responses one and two; the estimated scales are `1 / 2` and
`4 / 4`. -/
theorem C46_scale_witness (bessel : Flt → ℝ → ℝ) (draws : List (List Nat)) :
    let pd : Tensor ℝ := ⟨[1, 1, 1], fun _ => 0⟩
    let y : Tensor ℝ := ⟨[1, 1, 2], fun k => k + 1⟩
    ∃ models', multiOptimizeScale bessel [noisyModel 1, noisyModel 3] draws pd y = .ok models' ∧
      models'.map (fun T => T.R.gp.scale) = [1 / 2, 1] ∧ models'.map (fun T => T.R.gp.boundScale) = [1, 1] := by
  intro pd y
  set K : Tensor ℝ := ⟨[1, 1, 1], fun _ => 1⟩ with hK
  have hun : Unreserved [] := fun a ha => by simp at ha
  have hk : ∀ τ, (noisyModel τ).R.kernel.call bessel pd [] = .ok K := fun τ =>
    noisy_kernel bessel τ [1, 1, 1] [] hun rfl
  have hmat : ∀ (σ : ℝ) p, Spec.cov 1 K p + (Noise.homoscedastic σ).mat 1 p = (1 + σ) • (1 : Matrix (Fin 1) (Fin 1) ℝ) := by
    intro σ p
    ext i j
    fin_cases i; fin_cases j
    simp [Spec.cov, K, Tensor.get, Noise.mat]
  have hone : ∀ (σ : ℝ) (c : Nat), 0 < σ → c < 2 → multiScaleOne bessel 1 1 draws pd y (noisyModel σ) c =
      .ok { noisyModel σ with R := { (noisyModel σ).R with gp := { (noisyModel σ).R.gp with scale := ((c:ℝ) + 1) ^ 2 / (1 + σ) } } } := by
    intro σ c hσ hc
    have hax : scaleOptFn (noisyModel σ).scaleKind (noisyModel σ).R.gp draws K ⟨[1, 1, 1], fun k => y.flat (k * 2 + c)⟩ [] =
        .ok (some (((c:ℝ) + 1) ^ 2 / (1 + σ))) := by
      have h1 : (1 + σ) ≠ 0 := by linarith
      obtain ⟨P, p1, p2, p3⟩ := (Noise.homoscedastic σ).perturb_cov (b := 1) (n := 1) trivial K rfl
      show (do let s ← analyticOpt (.homoscedastic σ) 1 K _; return some s) = _
      have hrun : analyticOpt (.homoscedastic σ) 1 K ⟨[1, 1, 1], fun k => y.flat (k * 2 + c)⟩ =
          .ok (((c:ℝ) + 1) ^ 2 / (1 + σ)) := by
        unfold analyticOpt
        rw [show (Noise.homoscedastic σ).perturb K = .ok P from p1]
        simp only [bind, Except.bind]
        rw [analyticScale_eq 1 1 P _ p2 (.inr rfl) (by intro p _; rw [p3, hmat]; simpa using h1)]
        simp only [Spec.scaleEstimate, p3, hmat, Spec.quadForm, inv_smul_one h1, Matrix.smul_mulVec, Matrix.one_mulVec]
        simp [dotProduct, y]
        field_simp
        rfl
      rw [hrun]; rfl
    have hpos : ¬ (((c:ℝ) + 1) ^ 2 / (1 + σ) ≤ 0) := by rw [not_le]; positivity
    unfold multiScaleOne
    rw [hk]
    have hsl : sliceLast y c = .ok ⟨[1, 1], fun k => y.flat (k * 2 + c)⟩ := by
      show (if c < 2 then _ else _) = _
      rw [if_pos hc]
    rw [hsl]
    simp only [bind, Except.bind]
    rw [Tensor.reshape_ok _ _ (by simp)]
    simp only [hax, MuyGPS.setScale, if_neg hpos, pure, Except.pure]
  refine ⟨?w, ?_, ?_⟩
  case refine_1 =>
    unfold multiOptimizeScale
    have hys : y.shape = [1, 1, 2] := rfl
    simp only [hys, List.length_cons, List.length_nil, List.zipIdx_cons, List.zipIdx_nil, List.mapM_cons, List.mapM_nil]
    rw [if_neg (by simp), hone 1 0 one_pos (by omega), hone 3 1 (by norm_num) (by omega)]
    rfl
  · simp [noisyModel, MuyGPS.make]; norm_num

end MuyGPyS
