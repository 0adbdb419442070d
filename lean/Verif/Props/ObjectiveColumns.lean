import Verif.Props.Objective
import Verif.Props.Workflow

/-! # C40: responses given as a column, end to end -/

namespace MuyGPyS
open Py

theorem reshape_sizes (a c : List Nat) (h : a.prod = c.prod) (f : Nat → ℝ) (s : List Nat) :
    Tensor.reshape (⟨a, f⟩ : Tensor ℝ) s = Tensor.reshape ⟨c, f⟩ s := by
  unfold Tensor.reshape
  simp only [h]

/-- The scale estimate only looks at the entries of the responses. -/
theorem analyticScale_sizes (K : Tensor ℝ) (a c : List Nat) (h : a.prod = c.prod) (f : Nat → ℝ) :
    analyticScale K ⟨a, f⟩ = analyticScale K ⟨c, f⟩ := by
  unfold analyticScale
  simp only [reshape_sizes a c h]

theorem scaleOptFn_sizes (kind : ScaleKind) (hkind : ∀ d, kind ≠ .downSample d) (gp : MuyGPS) (draws : List (List Nat)) (K : Tensor ℝ)
    (a c : List Nat) (h : a.prod = c.prod) (f : Nat → ℝ) (kw : Dict Flt) :
    scaleOptFn kind gp draws K ⟨a, f⟩ kw = scaleOptFn kind gp draws K ⟨c, f⟩ kw := by
  cases kind with
  | fixed => rfl
  | analytic n =>
    unfold scaleOptFn analyticOpt
    simp only [analyticScale_sizes _ a c h]
  | downSample d => exact absurd rfl (hkind d)

/-- **C40 fails of the code**, end to end: a model trained on responses given as a column, the documented layout
`(train_count, response_count)` with one response. With the same responses given as a vector the objective is minus the sum over the
batch points of the contribution of the point with its own variance; with the column it is minus the sum over all *pairs*
of batch points, each residual being weighed with every variance. -/
theorem C40_column_objective_fails (bs : Flt → ℝ → ℝ) (T : Trainee) (hm : T.R.kernel.make = T.R.kernel) (l : LossKind)
    (term : ℝ → ℝ → ℝ → ℝ) (hterm : l.term = some term) (hl : l.raw = false) (hu : l ≠ .loolUnscaled)
    (hkind : ∀ d, T.scaleKind ≠ .downSample d) (draws : List (List Nat)) (P C : Tensor ℝ) (y t : Nat → ℝ) (b n : Nat) (hn : n ≠ 1)
    (kw : Dict Flt) (hk : T.R.kernel.Accepts kw) (hs : ScaleSeesTrialNoise T kw) (Kin Kc : Tensor ℝ)
    (hKin : (T.trial kw).R.kernel.call bs P [] = .ok Kin) (hKc : (T.trial kw).R.kernel.call bs C [] = .ok Kc)
    (hKs : Kin.shape = [b, n, n]) (hCs : Kc.shape = [b, n]) (hko : T.R.gp.kout.shape = [])
    (hν : (T.trial kw).R.gp.noise.Fits b n)
    (hinv : ∀ p < b, (Spec.cov n Kin p + (T.trial kw).R.gp.noise.mat n p).det ≠ 0)
    (hsym : ∀ p < b, (Spec.cov n Kin p).transpose = Spec.cov n Kin p)
    (σ : ℝ) (hσ : (T.trial kw).promisedScale draws Kin ⟨[b, n], y⟩ = .ok (some σ)) :
    let N := fun p => Spec.cov n Kin p + (T.trial kw).R.gp.noise.mat n p
    let μ := fun p => Spec.krigingMean (N p) (Spec.vec n Kc p) (Spec.vec n ⟨[b, n], y⟩ p)
    let v := fun p => Spec.krigingVar (T.R.gp.kout.get []) (N p) (Spec.vec n Kc p)
    objFn bs T l none draws P C ⟨[b, n], y⟩ ⟨[b], t⟩ kw =
        .ok (some (-∑ i ∈ Finset.range b, term (μ i) (t i) (σ * v i))) ∧
      objFn bs T l none draws P C ⟨[b, n, 1], y⟩ ⟨[b, 1], t⟩ kw =
        .ok (some (-∑ i ∈ Finset.range b, ∑ j ∈ Finset.range b, term (μ i) (t i) (σ * v j))) := by
  intro N μ v
  have hkr : ∀ D, T.R.kernel.optFn bs D (("batch_features", none) :: kw) = (T.trial kw).R.kernel.call bs D [] := by
    intro D
    conv_lhs => rw [← hm]
    rw [batch_features_ignored bs _ kw hk.1, kernel_override bs _ kw hk]
    rfl
  have hnr : ¬ (l.raw = true) := by rw [hl]; simp
  obtain ⟨m1, a1, a2, a3⟩ := C24_model_mean (T.trial kw).R.gp b n hν Kin Kc ⟨[b, n], y⟩ hKs hCs rfl hinv hsym
  obtain ⟨m2, c1, c2, c3⟩ := model_mean_multi (T.trial kw).R.gp b n 1 hn.symm hν Kin Kc ⟨[b, n, 1], y⟩ hKs hCs rfl hinv hsym
  obtain ⟨P', h1, h2, h3⟩ := (T.trial kw).R.gp.noise.perturb_cov hν Kin hKs
  obtain ⟨V, d1, d2, d3⟩ := diagonalVariance_core' (N := n) (O := 1) b [n] [] P' Kc T.R.gp.kout
    (by simp) (by simp) h2 (by simpa using hCs) (Or.inl ⟨hko, rfl⟩)
    (fun p hp => by rw [matAt_cov P' h2, h3]; exact hinv p hp)
  have hV : (T.R.gp.noise.trial kw).perturbFn (fun K => diagonalVariance K Kc T.R.gp.kout) Kin = .ok V := by
    unfold Noise.perturbFn
    have h1' : (T.R.gp.noise.trial kw).perturb Kin = .ok P' := h1
    rw [h1']; exact d1
  have hVv : ∀ p < b, V.get [p] = v p := by
    intro p hp
    have h6 := congrFun (congrFun (d3 p) 0) 0
    rw [matAt_scalar V d2, matAt_cov P' h2, Matrix.sub_apply, h3, col_kriging _
      (by rw [Matrix.transpose_add, hsym p hp, Noise.mat_symm])] at h6
    rw [h6]
    show _ = Spec.krigingVar _ _ _
    unfold Spec.krigingVar Spec.krigingMean
    have e0 : T.R.gp.kout.matAt 1 1 0 0 0 = T.R.gp.kout.get [] := by
      simp [Tensor.matAt, Tensor.get, hko, Tensor.ravel]
    have e1 : (fun a => Kc.matAt n 1 p a 0) = Spec.vec n Kc p := by
      ext i; exact matAt_vec Kc hCs p i 0
    rw [e0, e1]
  have a1' : (T.R.gp.noise.trial kw).perturbFn (fun K => posteriorMean K Kc ⟨[b, n], y⟩) Kin = .ok m1 := a1
  have c1' : (T.R.gp.noise.trial kw).perturbFn (fun K => posteriorMean K Kc ⟨[b, n, 1], y⟩) Kin = .ok m2 := c1
  have hs1 : scaleOptFn (T.trial kw).scaleKind (T.trial kw).R.gp draws Kin ⟨[b, n], y⟩ [] = .ok (some σ) := by
    rw [scaleOptFn_eq]; exact hσ
  have hs2 : scaleOptFn (T.trial kw).scaleKind (T.trial kw).R.gp draws Kin ⟨[b, n, 1], y⟩ [] = .ok (some σ) := by
    rw [← scaleOptFn_sizes (T.trial kw).scaleKind hkind (T.trial kw).R.gp draws Kin [b, n] [b, n, 1] (by simp) y []]
    exact hs1
  have hvec : ∀ p, Spec.vecR n ⟨[b, n, 1], y⟩ p 0 = Spec.vec n ⟨[b, n], y⟩ p := by
    intro p; funext i
    simp [Spec.vecR, Spec.vec, Tensor.get, Tensor.ravel]
  constructor
  · unfold objFn predictAndLoss
    rw [hkr, hkr, hKin, hKc]
    simp only [if_neg hnr, scale_trial T kw hs, MuyGPS.optMean, MuyGPS.optVariance, perturbFn_trial, maskColumns, maskVariances,
      bind, Except.bind, a1', hs1, hV]
    rw [(runVar_vector l hl hu m1 ⟨[b], t⟩ V σ rfl (∑ i ∈ Finset.range b, term (μ i) (t i) (σ * v i))).mpr ?_]
    · rfl
    · unfold LossKind.ofVariances
      rw [hterm]
      have d2' : (V.map fun x => σ * x).shape = [b] := d2
      simp only [a2, d2']
      rw [if_pos ⟨trivial, trivial⟩]
      congr 1
      refine Finset.sum_congr rfl fun i hi => ?_
      have hi := Finset.mem_range.mp hi
      have e1 : (V.map fun x => σ * x).get [i] = σ * V.get [i] := rfl
      rw [e1, hVv i hi, a3 i hi]
      congr 1
      simp [Tensor.get, Tensor.ravel]
  · unfold objFn predictAndLoss
    rw [hkr, hkr, hKin, hKc]
    simp only [if_neg hnr, scale_trial T kw hs, MuyGPS.optMean, MuyGPS.optVariance, perturbFn_trial, maskColumns, maskVariances,
      bind, Except.bind, c1', hs2, hV]
    rw [(C40_response_matrix_fails l term hterm b 1 σ m2 ⟨[b, 1], t⟩ V c2 rfl d2).1 rfl]
    simp only [pure, Except.pure, Option.map_some]
    congr 3
    refine Finset.sum_congr rfl fun i hi => Finset.sum_congr rfl fun j hj => ?_
    have hi := Finset.mem_range.mp hi
    rw [hVv j (Finset.mem_range.mp hj), c3 i hi 0 (by omega), hvec]
    congr 1
    simp [Tensor.get, Tensor.ravel]

/-- Non-vacuity: two batch points with two neighbours each, unit noise, coinciding features. The hypotheses are met, and the
column and the vector of the same responses give objectives that differ already in the number of their terms. -/
example (bs : Flt → ℝ → ℝ) (y t : Nat → ℝ) :
    let T : Trainee := { noisyModel 1 with scaleKind := .fixed }
    let K : Tensor ℝ := ⟨[2, 2, 2], fun _ => 1⟩
    T.R.kernel.make = T.R.kernel ∧ T.R.kernel.Accepts [] ∧ ScaleSeesTrialNoise T [] ∧
      (T.trial []).R.kernel.call bs ⟨[2, 2, 2], fun _ => 0⟩ [] = .ok K ∧
      (∀ p < 2, (Spec.cov 2 K p + (T.trial []).R.gp.noise.mat 2 p).det ≠ 0) ∧
      (∀ p < 2, (Spec.cov 2 K p).transpose = Spec.cov 2 K p) ∧
      (T.trial []).promisedScale [] K ⟨[2, 2], y⟩ = .ok (some 1) := by
  intro T K
  have hun : Unreserved [] := fun a ha => by simp at ha
  have hcov : ∀ p, Spec.cov 2 K p = !![1, 1; 1, 1] := by
    intro p; ext i j
    fin_cases i <;> fin_cases j <;> rfl
  refine ⟨rfl, ⟨hun, fun p _ => .inr rfl, trivial⟩, .inl rfl, noisy_kernel bs 1 _ [] hun rfl, ?_, ?_, rfl⟩
  · intro p _
    have : (T.trial []).R.gp.noise.mat 2 p = (1 : ℝ) • (1 : Matrix (Fin 2) (Fin 2) ℝ) := rfl
    rw [hcov, this, one_smul, Matrix.det_fin_two]
    norm_num
  · intro p _
    rw [hcov]
    ext i j
    fin_cases i <;> fin_cases j <;> rfl

end MuyGPyS
