import Verif.Props.ObjectiveColumns

/-! # C121: training on some of the responses (`target_mask`) -/

namespace MuyGPyS
open Py

/-- The responses `mask` of the neighbours, in this order. -/
def Spec.someResponses (mask : List Nat) (b n : Nat) (y : Tensor ℝ) : Tensor ℝ :=
  Tensor.ofFn [b, n, mask.length] fun i => y.get [i.getD 0 0, i.getD 1 0, mask.getD (i.getD 2 0) 0]

theorem flat_get2 (t : Tensor ℝ) {b k : Nat} (h : t.shape = [b, k]) {i : Nat} (hi : i < b * k) : t.flat i = t.get [i / k, i % k] := by
  simp only [Tensor.get, h, Tensor.ravel, List.prod_cons, List.prod_nil, mul_one]
  congr 1
  rw [mul_comm]; exact (Nat.div_add_mod i k).symm

/-- A loss of means only looks at the entries. -/
theorem ofMeans_congr (l : LossKind) (μ ν t : Tensor ℝ) (b k : Nat) (hμ : μ.shape = [b, k]) (hν : ν.shape = [b, k])
    (h : ∀ p < b, ∀ c < k, μ.get [p, c] = ν.get [p, c]) : l.ofMeans μ t = l.ofMeans ν t := by
  have he : entries μ = entries ν := by
    unfold entries
    rw [hμ, hν]
    refine List.map_congr_left fun i hi => ?_
    have hi : i < b * k := by simpa using hi
    have hk : 0 < k := Nat.pos_of_ne_zero fun h => by simp [h] at hi
    rw [flat_get2 μ hμ hi, flat_get2 ν hν hi]
    exact h _ (Nat.div_lt_of_lt_mul (by rwa [mul_comm])) _ (Nat.mod_lt _ hk)
  have hr : ((List.range b).map fun i => ((List.range k).map fun j => μ.get [i, j], (List.range k).map fun j => t.get [i, j])) =
      (List.range b).map fun i => ((List.range k).map fun j => ν.get [i, j], (List.range k).map fun j => t.get [i, j]) := by
    refine List.map_congr_left fun i hi => ?_
    congr 1
    exact List.map_congr_left fun j hj => h i (List.mem_range.1 hi) j (List.mem_range.1 hj)
  unfold LossKind.ofMeans
  simp only [hμ, hν, he, hr]

/-- **C121**, losses of the predictions alone: training with `target_mask = mask` on responses of `r` outputs is training
without a mask on the chosen outputs alone, for every trial hyperparameters. -/
theorem C121_raw_partial (bs : Flt → ℝ → ℝ) (T : Trainee) (hm : T.R.kernel.make = T.R.kernel) (l : LossKind) (hl : l.raw = true)
    (mask : List Nat) (b n r : Nat) (hmask : ∀ c ∈ mask, c < r) (hr : r ≠ n) (hmn : mask.length ≠ n)
    (draws draws' : List (List Nat)) (P C y t : Tensor ℝ) (hy : y.shape = [b, n, r])
    (kw : Dict Flt) (hk : T.R.kernel.Accepts kw) (Kin Kc : Tensor ℝ)
    (hKin : (T.trial kw).R.kernel.call bs P [] = .ok Kin) (hKc : (T.trial kw).R.kernel.call bs C [] = .ok Kc)
    (hKs : Kin.shape = [b, n, n]) (hCs : Kc.shape = [b, n]) (hν : (T.trial kw).R.gp.noise.Fits b n)
    (hinv : ∀ p < b, (Spec.cov n Kin p + (T.trial kw).R.gp.noise.mat n p).det ≠ 0)
    (hsym : ∀ p < b, (Spec.cov n Kin p).transpose = Spec.cov n Kin p) :
    objFn bs T l (some mask) draws P C y t kw = objFn bs T l none draws' P C (Spec.someResponses mask b n y) t kw := by
  rw [C40_raw bs T hm l hl _ _ _ _ _ _ kw hk, C40_raw bs T hm l hl _ _ _ _ _ _ kw hk]
  obtain ⟨μ, a1, a2, a3⟩ := model_mean_multi (T.trial kw).R.gp b n r hr hν Kin Kc y hKs hCs hy hinv hsym
  obtain ⟨ν, c1, c2, c3⟩ := model_mean_multi (T.trial kw).R.gp b n mask.length hmn hν Kin Kc (Spec.someResponses mask b n y) hKs hCs rfl hinv hsym
  have hp : pickOutputs (some mask) μ = .ok (Tensor.ofFn [b, mask.length] fun i => μ.get [i.getD 0 0, mask.getD (i.getD 1 0) 0]) := by
    rw [← maskColumns_eq]
    unfold maskColumns
    rw [a2]
    exact if_pos hmask
  unfold promisedRaw
  simp only [hKin, hKc, a1, c1, bind, Except.bind, hp]
  rw [show pickOutputs none ν = .ok ν from rfl]
  simp only
  rw [ofMeans_congr l _ ν t b mask.length rfl c2 fun p hp c hc => ?_]
  have hcm : mask.getD c 0 < r := by
    have : mask.getD c 0 = mask[c] := by simp [List.getD, hc]
    rw [this]
    exact hmask _ (List.getElem_mem hc)
  rw [ofFn_get2 _ hp hc, c3 p hp c hc]
  simp only [List.getD_cons_zero, List.getD_cons_succ]
  rw [a3 p hp _ hcm]
  congr 1
  funext j
  simp only [Spec.vecR, Spec.someResponses]
  rw [Tensor.get_ofFn _ _ _ (by simp [j.2, hp, hc])]
  simp

/-- **C121 fails of the code**: with the variance losses (`lool`, `looph`, …) every `target_mask` makes a univariate model raise
`IndexError` (`variances[:, mask, mask]` has three indices, the variances one axis), for responses of one or several outputs, any mask
and any trial hyperparameters at which training without a mask is defined. -/
theorem C121_variance_fails (bs : Flt → ℝ → ℝ) (T : Trainee) (hm : T.R.kernel.make = T.R.kernel) (l : LossKind) (hl : l.raw = false)
    (mask : List Nat) (b n : Nat) (draws : List (List Nat)) (P C y t : Tensor ℝ)
    (hy : y.shape = [b, n] ∨ ∃ r, r ≠ n ∧ y.shape = [b, n, r])
    (kw : Dict Flt) (hk : T.R.kernel.Accepts kw) (hs : ScaleSeesTrialNoise T kw) (Kin Kc : Tensor ℝ)
    (hKin : (T.trial kw).R.kernel.call bs P [] = .ok Kin) (hKc : (T.trial kw).R.kernel.call bs C [] = .ok Kc)
    (hKs : Kin.shape = [b, n, n]) (hCs : Kc.shape = [b, n]) (hko : T.R.gp.kout.shape = [])
    (hν : (T.trial kw).R.gp.noise.Fits b n)
    (hinv : ∀ p < b, (Spec.cov n Kin p + (T.trial kw).R.gp.noise.mat n p).det ≠ 0)
    (hsym : ∀ p < b, (Spec.cov n Kin p).transpose = Spec.cov n Kin p)
    (σ : Option ℝ) (hσ : (T.trial kw).promisedScale draws Kin y = .ok σ) :
    objFn bs T l (some mask) draws P C y t kw = .error .index := by
  have hkr : ∀ D, T.R.kernel.optFn bs D (("batch_features", none) :: kw) = (T.trial kw).R.kernel.call bs D [] := by
    intro D
    conv_lhs => rw [← hm]
    rw [batch_features_ignored bs _ kw hk.1, kernel_override bs _ kw hk]
    rfl
  have hnr : ¬ (l.raw = true) := by rw [hl]; simp
  obtain ⟨P', h1, h2, h3⟩ := (T.trial kw).R.gp.noise.perturb_cov hν Kin hKs
  obtain ⟨V, d1, d2, d3⟩ := diagonalVariance_core' (N := n) (O := 1) b [n] [] P' Kc T.R.gp.kout
    (by simp) (by simp) h2 (by simpa using hCs) (Or.inl ⟨hko, rfl⟩)
    (fun p hp => by rw [matAt_cov P' h2, h3]; exact hinv p hp)
  have hV : (T.R.gp.noise.trial kw).perturbFn (fun K => diagonalVariance K Kc T.R.gp.kout) Kin = .ok V := by
    unfold Noise.perturbFn
    have h1' : (T.R.gp.noise.trial kw).perturb Kin = .ok P' := h1
    rw [h1']; exact d1
  have hs1 : scaleOptFn (T.trial kw).scaleKind (T.trial kw).R.gp draws Kin y [] = .ok σ := by
    rw [scaleOptFn_eq]; exact hσ
  have hmean : ∃ μ s, (T.R.gp.noise.trial kw).perturbFn (fun K => posteriorMean K Kc y) Kin = .ok μ ∧ μ.shape = b :: s := by
    rcases hy with hy | ⟨r, hr, hy⟩
    · obtain ⟨μ, a1, a2, _⟩ := C24_model_mean (T.trial kw).R.gp b n hν Kin Kc y hKs hCs hy hinv hsym
      exact ⟨μ, [], a1, a2⟩
    · obtain ⟨μ, a1, a2, _⟩ := model_mean_multi (T.trial kw).R.gp b n r hr hν Kin Kc y hKs hCs hy hinv hsym
      exact ⟨μ, [r], a1, a2⟩
  obtain ⟨μ, s, a1, _⟩ := hmean
  have hv : maskVariances (some mask) V = .error .index := by
    unfold maskVariances
    rw [d2]
    exact if_pos (by simp)
  have hp : maskColumns (some mask) μ = .error .index ∨ ∃ ν, maskColumns (some mask) μ = .ok ν := by
    unfold maskColumns
    simp only
    split
    · split
      · exact .inr ⟨_, rfl⟩
      · exact .inl rfl
    · exact .inl rfl
  unfold objFn predictAndLoss
  rw [hkr, hkr, hKin, hKc]
  simp only [if_neg hnr, scale_trial T kw hs, MuyGPS.optMean, MuyGPS.optVariance, perturbFn_trial, bind, Except.bind, a1, hs1, hV]
  rcases hp with hp | ⟨ν, hp⟩
  · rw [hp]
  · rw [hp]
    simp only [hv]

/-- **C121 fails of the code** also for responses given as a vector, which is how one output is given in training: any mask, the one
which chooses that output included, raises `IndexError`. -/
theorem C121_vector_fails (bs : Flt → ℝ → ℝ) (T : Trainee) (hm : T.R.kernel.make = T.R.kernel) (l : LossKind) (hl : l.raw = true)
    (mask : List Nat) (b n : Nat) (draws : List (List Nat)) (P C y t : Tensor ℝ) (hy : y.shape = [b, n])
    (kw : Dict Flt) (hk : T.R.kernel.Accepts kw) (Kin Kc : Tensor ℝ)
    (hKin : (T.trial kw).R.kernel.call bs P [] = .ok Kin) (hKc : (T.trial kw).R.kernel.call bs C [] = .ok Kc)
    (hKs : Kin.shape = [b, n, n]) (hCs : Kc.shape = [b, n]) (hν : (T.trial kw).R.gp.noise.Fits b n)
    (hinv : ∀ p < b, (Spec.cov n Kin p + (T.trial kw).R.gp.noise.mat n p).det ≠ 0)
    (hsym : ∀ p < b, (Spec.cov n Kin p).transpose = Spec.cov n Kin p) :
    objFn bs T l (some mask) draws P C y t kw = .error .index := by
  rw [C40_raw bs T hm l hl _ _ _ _ _ _ kw hk]
  obtain ⟨μ, a1, a2, _⟩ := C24_model_mean (T.trial kw).R.gp b n hν Kin Kc y hKs hCs hy hinv hsym
  unfold promisedRaw
  simp only [hKin, hKc, a1, bind, Except.bind]
  unfold pickOutputs
  rw [a2]

/-- Non-vacuity: two batch points with two neighbours each, unit noise, coinciding features, four outputs of which three are chosen, in
another order. Training on them with the mean squared error is training on their columns; with `lool` it raises, and so does training on
the only output with the mean squared error. -/
example (bs : Flt → ℝ → ℝ) (y : Nat → ℝ) (t : Tensor ℝ) :
    let T : Trainee := { noisyModel 1 with scaleKind := .fixed }
    let P : Tensor ℝ := ⟨[2, 2, 2], fun _ => 0⟩
    let C : Tensor ℝ := ⟨[2, 2], fun _ => 0⟩
    objFn bs T .mse (some [2, 0, 3]) [] P C ⟨[2, 2, 4], y⟩ t [] =
        objFn bs T .mse none [] P C (Spec.someResponses [2, 0, 3] 2 2 ⟨[2, 2, 4], y⟩) t [] ∧
      objFn bs T .lool (some [2, 0, 3]) [] P C ⟨[2, 2, 4], y⟩ t [] = .error .index ∧
      objFn bs T .mse (some [0]) [] P C ⟨[2, 2], y⟩ t [] = .error .index := by
  intro T P C
  have hun : Unreserved [] := fun a ha => by simp at ha
  have hK := noisy_kernel bs 1 [2, 2, 2] [] hun rfl
  have hC := noisy_kernel bs 1 [2, 2] [] hun rfl
  have hcov : ∀ p, Spec.cov 2 ⟨[2, 2, 2], fun _ => 1⟩ p = !![1, 1; 1, 1] := by
    intro p; ext i j
    fin_cases i <;> fin_cases j <;> rfl
  have hk : T.R.kernel.Accepts [] := ⟨hun, fun p _ => .inr rfl, trivial⟩
  have hinv : ∀ p < 2, (Spec.cov 2 ⟨[2, 2, 2], fun _ => 1⟩ p + (T.trial []).R.gp.noise.mat 2 p).det ≠ 0 := by
    intro p _
    have : (T.trial []).R.gp.noise.mat 2 p = (1 : ℝ) • (1 : Matrix (Fin 2) (Fin 2) ℝ) := rfl
    rw [hcov, this, one_smul, Matrix.det_fin_two]
    norm_num
  have hsym : ∀ p < 2, (Spec.cov 2 ⟨[2, 2, 2], fun _ => 1⟩ p).transpose = Spec.cov 2 ⟨[2, 2, 2], fun _ => 1⟩ p := by
    intro p _
    rw [hcov]
    ext i j
    fin_cases i <;> fin_cases j <;> rfl
  refine ⟨?_, ?_, ?_⟩
  · exact C121_raw_partial bs T rfl .mse rfl [2, 0, 3] 2 2 4 (by simp) (by norm_num) (by norm_num) [] [] P C _ t rfl [] hk _ _ hK hC rfl rfl
      trivial hinv hsym
  · exact C121_variance_fails bs T rfl .lool rfl [2, 0, 3] 2 2 [] P C _ t (.inr ⟨4, by norm_num, rfl⟩) [] hk (.inl rfl) _ _ hK hC rfl rfl rfl
      trivial hinv hsym (some 1) rfl
  · exact C121_vector_fails bs T rfl .mse rfl [0] 2 2 [] P C _ t rfl [] hk _ _ hK hC rfl rfl trivial hinv hsym

end MuyGPyS
