import Verif.Lemmas.Scale
import Verif.Props.Posterior
import Mathlib.Analysis.SpecificLimits.Basic

/-!
# Property C33: the analytic variance scale
-/

namespace MuyGPyS
open Py Matrix

theorem quadForm_smul_y {n : Nat} (K : Matrix (Fin n) (Fin n) ℝ) (y : Fin n → ℝ) (a : ℝ) :
    Spec.quadForm K (a • y) = a ^ 2 * Spec.quadForm K y := by
  unfold Spec.quadForm
  rw [mulVec_smul, smul_dotProduct, dotProduct_smul, smul_eq_mul, smul_eq_mul]; ring

theorem inv_smul_mat {n : Nat} (K : Matrix (Fin n) (Fin n) ℝ) {c : ℝ} (hc : c ≠ 0) :
    (c • K)⁻¹ = c⁻¹ • K⁻¹ := by
  by_cases h : IsUnit K.det
  · have := Matrix.inv_smul' (A := K) (Units.mk0 c hc) h
    simpa [Units.smul_def] using this
  · rw [nonsing_inv_apply_not_isUnit _ h, nonsing_inv_apply_not_isUnit, smul_zero]
    rw [det_smul]
    intro h2
    exact h (isUnit_of_mul_isUnit_right h2)

theorem quadForm_smul_K {n : Nat} (K : Matrix (Fin n) (Fin n) ℝ) (y : Fin n → ℝ) {c : ℝ} (hc : c ≠ 0) :
    Spec.quadForm (c • K) y = c⁻¹ * Spec.quadForm K y := by
  unfold Spec.quadForm
  rw [inv_smul_mat K hc, smul_mulVec, dotProduct_smul, smul_eq_mul]

theorem analyticScale_eq (b n : Nat) (K y : Tensor ℝ)
    (hK : K.shape = [b, n, n]) (hy : y.shape = [b, n] ∨ y.shape = [b, n, 1])
    (hinv : ∀ p < b, (Spec.cov n K p).det ≠ 0) :
    analyticScale K y = .ok (Spec.scaleEstimate b (Spec.cov n K) fun p i => y.flat (p * n + i)) := by
  rw [analyticScale_core (N := n) b [n] K y hK (by simp)
    (by rcases hy with h | h <;> rw [h] <;> simp) (fun p hp => by rw [matAt_cov K hK]; exact hinv p hp)]
  unfold Spec.scaleEstimate
  congr 1
  rw [div_eq_inv_mul, one_div]
  congr 1
  · push_cast; rfl
  · refine Finset.sum_congr rfl fun p _ => ?_
    rw [matAt_cov K hK]

theorem flat_vec {b n : Nat} {y : Tensor ℝ} (hy : y.shape = [b, n]) (p : Nat) :
    (fun i : Fin n => y.flat (p * n + i)) = Spec.vec n y p := by
  ext i; exact (Tensor.get2 y hy p i).symm

/-- **C33**, the documented formula: with its default single iteration, the analytic scale optimiser
returns `1/(b k) Σ_i Y_iᵀ (K_i + noise_i)⁻¹ Y_i`, for every noise model that fits, batch size,
neighbour count, and targets of shape `(b, k)`; a singular neighbourhood is an error. -/
theorem C33_documented_formula (ν : Noise) (b n : Nat) (hν : ν.Fits b n) (Kin y : Tensor ℝ)
    (hK : Kin.shape = [b, n, n]) (hy : y.shape = [b, n]) :
    ((∀ p < b, (Spec.cov n Kin p + ν.mat n p).det ≠ 0) →
      analyticOpt ν 1 Kin y = .ok (Spec.scaleEstimate b (fun p => Spec.cov n Kin p + ν.mat n p)
        (Spec.vec n y))) ∧
    ((∃ p < b, (Spec.cov n Kin p + ν.mat n p).det = 0) → analyticOpt ν 1 Kin y = .error .linAlg) := by
  obtain ⟨P, h1, h2, h3⟩ := ν.perturb_cov hν Kin hK
  have e : analyticOpt ν 1 Kin y = analyticScale P y := by
    unfold analyticOpt
    rw [h1]
    show (do let s ← analyticScale P y; (List.range' 1 0).foldlM (init := s) _) = _
    cases analyticScale P y <;> rfl
  constructor
  · intro hinv
    rw [e, analyticScale_eq b n P y h2 (Or.inl hy) (fun p hp => by rw [h3]; exact hinv p hp)]
    congr 2
    · funext p; exact h3 p
    · funext p; exact flat_vec hy p
  · rintro ⟨p, hp, hd⟩
    rw [e]
    exact analyticScale_singular (N := n) b [n] P y h2 (by simp) (by rw [hy]; simp) p hp
      (by rw [matAt_cov P h2, h3]; exact hd)

/-- **C33** for multi-output covariances `(b, o, k, o, k)` with targets `(b, o, k)`: the same
formula over the `o * k` observations of each neighbourhood. -/
theorem C33_multi_output (b o n : Nat) (Kin y : Tensor ℝ)
    (hK : Kin.shape = [b, o, n, o, n]) (hy : y.shape = [b, o, n])
    (hinv : ∀ p < b, (Spec.cov5 o n Kin p).det ≠ 0) :
    analyticScale Kin y = .ok (Spec.scaleEstimate b (Spec.cov5 o n Kin) (Spec.vec3 o n y)) := by
  rw [analyticScale_core (N := o * n) b [o, n] Kin y hK (by simp) (by rw [hy]; simp)
    (fun p hp => by rw [matAt_cov5 Kin hK]; exact hinv p hp)]
  unfold Spec.scaleEstimate
  congr 1
  rw [div_eq_inv_mul, one_div]
  congr 1
  · push_cast; rfl
  · refine Finset.sum_congr rfl fun p _ => ?_
    rw [matAt_cov5 Kin hK]
    congr 1
    ext i
    have := matAt_vec3 y hy p i 0
    simpa [Tensor.matAt, Spec.vec3] using this

/-- **C33, where the code fails its documentation.** Targets with a response axis,
`(b, k, r)` with `r ≠ 1`, which the documentation allows, are always rejected. -/
theorem C33_responses_rejected (b n r : Nat) (hb : 0 < b) (hn : 0 < n) (hr : r ≠ 1) (Kin y : Tensor ℝ)
    (hK : Kin.shape = [b, n, n]) (hy : y.shape = [b, n, r]) : analyticScale Kin y = .error .value := by
  have r1 : Kin.reshape ([b] ++ [n, n]) = .ok ⟨[b] ++ [n, n], Kin.flat⟩ :=
    Tensor.reshape_ok _ _ (by rw [hK]; simp)
  have r2 : y.reshape ([b] ++ [n, 1]) = .error .value := by
    refine Tensor.reshape_err _ _ ?_
    rw [hy]
    simp only [List.cons_append, List.nil_append, List.prod_cons, List.prod_nil, Nat.mul_one]
    intro h
    have h1 := Nat.eq_of_mul_eq_mul_left hb h
    exact hr (Nat.eq_of_mul_eq_mul_left hn (by omega))
  unfold analyticScale
  have e1 : (Kin.ndim - 1) / 2 = 1 := by simp [Tensor.ndim, hK]
  simp only [e1, hK, List.take, List.drop, List.prod_singleton, r1, r2]
  rfl

/-- **C33**: positive definite neighbourhoods give a non-negative estimate, which is zero only if all
the targets are zero. -/
theorem C33_nonneg (ν : Noise) (b n : Nat) (hν : ν.Fits b n) (hb : 0 < b) (hn : 0 < n)
    (Kin y : Tensor ℝ) (hK : Kin.shape = [b, n, n]) (hy : y.shape = [b, n])
    (hpd : ∀ p < b, (Spec.cov n Kin p + ν.mat n p).PosDef) :
    ∃ s, analyticOpt ν 1 Kin y = .ok s ∧ 0 ≤ s ∧
      (s = 0 ↔ ∀ p < b, ∀ i < n, y.get [p, i] = 0) := by
  refine ⟨_, (C33_documented_formula ν b n hν Kin y hK hy).1
    (fun p hp => Kriging.det_ne_zero (hpd p hp)), ?_, ?_⟩
  · refine mul_nonneg (by positivity) (Finset.sum_nonneg fun p hp => ?_)
    exact Kriging.quad_nonneg (hpd p (Finset.mem_range.1 hp)) _
  · unfold Spec.scaleEstimate
    rw [mul_eq_zero, or_iff_right (by positivity), Finset.sum_eq_zero_iff_of_nonneg
      (f := fun p => Spec.quadForm (Spec.cov n Kin p + ν.mat n p) (Spec.vec n y p))
      (fun p hp => Kriging.quad_nonneg (hpd p (Finset.mem_range.1 hp)) _)]
    constructor
    · intro h p hp i hi
      by_contra hne
      have h0 := h p (Finset.mem_range.2 hp)
      have : Spec.vec n y p ≠ 0 := fun hz => hne (congrFun hz ⟨i, hi⟩)
      have := Kriging.quad_pos (hpd p hp) this
      unfold Spec.quadForm at h0
      linarith
    · intro h p hp
      have : Spec.vec n y p = 0 := by
        ext i; exact h p (Finset.mem_range.1 hp) i i.2
      rw [this]; simp [Spec.quadForm]

/-- **C33**: multiplying the targets by `a` multiplies the estimate by `a²`; multiplying the
covariances by `c ≠ 0` divides it by `c`. -/
theorem C33_scaling (b n : Nat) (a c : ℝ) (hc : c ≠ 0) (K y : Tensor ℝ)
    (hK : K.shape = [b, n, n]) (hy : y.shape = [b, n])
    (hinv : ∀ p < b, (Spec.cov n K p).det ≠ 0) :
    ∃ s, analyticScale K y = .ok s ∧ analyticScale K (smulT a y) = .ok (a ^ 2 * s) ∧
      analyticScale (smulT c K) y = .ok (s / c) := by
  refine ⟨_, analyticScale_eq b n K y hK (Or.inl hy) hinv, ?_, ?_⟩
  · rw [analyticScale_eq b n K (smulT a y) hK (Or.inl hy) hinv]
    congr 1
    unfold Spec.scaleEstimate
    rw [mul_left_comm]
    congr 1
    rw [Finset.mul_sum]
    refine Finset.sum_congr rfl fun p _ => ?_
    rw [← quadForm_smul_y]; rfl
  · have hcov : ∀ p, Spec.cov n (smulT c K) p = c • Spec.cov n K p := fun p => rfl
    rw [analyticScale_eq b n (smulT c K) y hK (Or.inl hy) (fun p hp => by
      rw [hcov, det_smul]; exact mul_ne_zero (pow_ne_zero _ hc) (hinv p hp))]
    congr 1
    unfold Spec.scaleEstimate
    rw [mul_div_assoc]
    congr 1
    rw [div_eq_inv_mul, Finset.mul_sum]
    refine Finset.sum_congr rfl fun p _ => ?_
    rw [hcov, quadForm_smul_K _ _ hc]

/-- **C33**: the estimate does not depend on the order of the batch elements nor on the order in which
each element's neighbours are listed. -/
theorem C33_order (b n : Nat) (K y K' y' : Tensor ℝ)
    (hK : K.shape = [b, n, n]) (hy : y.shape = [b, n])
    (hK' : K'.shape = [b, n, n]) (hy' : y'.shape = [b, n])
    (σ : Equiv.Perm (Fin b)) (τ : Fin b → Equiv.Perm (Fin n))
    (h1 : ∀ p i j, K'.get [(p : Fin b), (i : Fin n), (j : Fin n)] = K.get [σ p, τ p i, τ p j])
    (h2 : ∀ p i, y'.get [(p : Fin b), (i : Fin n)] = y.get [σ p, τ p i])
    (hinv : ∀ p < b, (Spec.cov n K p).det ≠ 0) :
    analyticScale K' y' = analyticScale K y ∧ (analyticScale K y).isOk := by
  have hc : ∀ p : Fin b, Spec.cov n K' p = (Spec.cov n K (σ p)).submatrix (τ p) (τ p) := by
    intro p; ext i j; exact h1 p i j
  have hv : ∀ p : Fin b, Spec.vec n y' p = Spec.vec n y (σ p) ∘ (τ p) := by
    intro p; ext i; exact h2 p i
  have e1 := analyticScale_eq b n K y hK (Or.inl hy) hinv
  have e2 := analyticScale_eq b n K' y' hK' (Or.inl hy') (fun p hp => by
    have := hc ⟨p, hp⟩
    simp only at this
    rw [this, det_submatrix_equiv_self]
    exact hinv _ (σ ⟨p, hp⟩).2)
  refine ⟨?_, by rw [e1]; rfl⟩
  rw [e1, e2]
  congr 1
  unfold Spec.scaleEstimate
  congr 1
  rw [Finset.sum_range, Finset.sum_range]
  conv_rhs => rw [← Equiv.sum_comp σ]
  refine Finset.sum_congr rfl fun p _ => ?_
  simp only [flat_vec hy', flat_vec hy, hc, hv]
  exact Kriging.quad_perm _ _ _ _

/-! ### more than one iteration -/

/-- the recursion computed by the iterations: Heron's method started at `c` -/
noncomputable def heron (c : ℝ) : Nat → ℝ
  | 0 => c
  | k + 1 => 0.5 * (heron c k + c / heron c k)

theorem heron_pos {c : ℝ} (hc : 0 < c) (k : Nat) : 0 < heron c k := by
  induction k with
  | zero => exact hc
  | succ k ih => unfold heron; positivity

theorem heron_ge {c : ℝ} (hc : 0 < c) (k : Nat) : Real.sqrt c ≤ heron c (k + 1) := by
  have h := heron_pos hc k
  show _ ≤ 0.5 * (heron c k + c / heron c k)
  rw [Real.sqrt_le_left (by positivity)]
  have e : (0.5 * (heron c k + c / heron c k)) ^ 2 - c
      = (0.5 * (heron c k - c / heron c k)) ^ 2 := by field_simp; ring
  nlinarith [sq_nonneg (0.5 * (heron c k - c / heron c k))]

theorem heron_step_le {c : ℝ} (hc : 0 < c) (k : Nat) : heron c (k + 2) ≤ heron c (k + 1) := by
  have h := heron_pos hc (k + 1)
  have h2 := heron_ge hc k
  have h3 : c ≤ heron c (k + 1) ^ 2 := by
    calc c = Real.sqrt c ^ 2 := (Real.sq_sqrt hc.le).symm
      _ ≤ _ := pow_le_pow_left₀ (Real.sqrt_nonneg _) h2 2
  show 0.5 * (heron c (k + 1) + c / heron c (k + 1)) ≤ _
  have : c / heron c (k + 1) ≤ heron c (k + 1) := by
    rw [div_le_iff₀ h]; nlinarith
  linarith

theorem heron_err {c : ℝ} (hc : 0 < c) (k : Nat) :
    heron c (k + 2) - Real.sqrt c ≤ (heron c (k + 1) - Real.sqrt c) / 2 := by
  have h := heron_pos hc (k + 1)
  have h2 := heron_ge hc k
  show 0.5 * (heron c (k + 1) + c / heron c (k + 1)) - _ ≤ _
  have : c / heron c (k + 1) ≤ Real.sqrt c := by
    rw [div_le_iff₀ h]
    calc c = Real.sqrt c * Real.sqrt c := (Real.mul_self_sqrt hc.le).symm
      _ ≤ _ := mul_le_mul_of_nonneg_left h2 (Real.sqrt_nonneg _)
  linarith

theorem heron_tendsto {c : ℝ} (hc : 0 < c) :
    Filter.Tendsto (heron c) Filter.atTop (nhds (Real.sqrt c)) := by
  rw [← Filter.tendsto_add_atTop_iff_nat 1]
  have hb : ∀ k, heron c (k + 1) - Real.sqrt c ≤ (heron c 1 - Real.sqrt c) * (1 / 2) ^ k := by
    intro k
    induction k with
    | zero => simp
    | succ k ih =>
      have := heron_err hc k
      rw [pow_succ]; linarith
  have hlim : Filter.Tendsto (fun k : Nat => Real.sqrt c + (heron c 1 - Real.sqrt c) * (1 / 2 : ℝ) ^ k)
      Filter.atTop (nhds (Real.sqrt c)) := by
    have h0 := tendsto_pow_atTop_nhds_zero_of_lt_one (r := (1 / 2 : ℝ)) (by norm_num) (by norm_num)
    have := (h0.const_mul (heron c 1 - Real.sqrt c)).const_add (Real.sqrt c)
    simpa using this
  refine tendsto_of_tendsto_of_tendsto_of_le_of_le tendsto_const_nhds hlim (fun k => heron_ge hc k)
    (fun k => ?_)
  have := hb k
  simp only
  linarith

theorem heron_ne {c : ℝ} (hc : 0 < c) (h1 : c ≠ 1) (k : Nat) : heron c (k + 1) ≠ c := by
  rcases lt_or_gt_of_ne h1 with h | h
  · -- c < 1: sqrt c > c
    have := heron_ge hc k
    have h2 : c < Real.sqrt c := by
      rw [Real.lt_sqrt hc.le]; nlinarith
    linarith
  · have hle : heron c (k + 1) ≤ heron c 1 := by
      induction k with
      | zero => exact le_refl _
      | succ k ih => exact (heron_step_le hc k).trans ih
    have e : heron c 1 = 0.5 * (c + 1) := by
      show 0.5 * (c + c / c) = _
      rw [div_self hc.ne']
    linarith

/-- **C33, where the code fails its documentation.** With `m + 1` iterations and positive
definite neighbourhoods whose documented estimate is `c > 0`, the optimiser returns `heron c m`:
Heron's iteration, which converges to `√c`, the square root of the documented value. So for every
`iteration_count ≥ 2` and `c ≠ 1` the result differs from the documented formula. -/
theorem C33_iterations_not_documented (ν : Noise) (b n : Nat) (hν : ν.Fits b n) (Kin y : Tensor ℝ)
    (hK : Kin.shape = [b, n, n]) (hy : y.shape = [b, n]) (c : ℝ) (hc : 0 < c)
    (hinv : ∀ p < b, (Spec.cov n Kin p + ν.mat n p).det ≠ 0)
    (hcdef : c = Spec.scaleEstimate b (fun p => Spec.cov n Kin p + ν.mat n p) (Spec.vec n y)) :
    (∀ m, analyticOpt ν (m + 1) Kin y = .ok (heron c m)) ∧
    Filter.Tendsto (heron c) Filter.atTop (nhds (Real.sqrt c)) ∧
    (c ≠ 1 → ∀ iterationCount, 2 ≤ iterationCount → analyticOpt ν iterationCount Kin y ≠ .ok c) := by
  obtain ⟨P, h1, h2, h3⟩ := ν.perturb_cov hν Kin hK
  have hinvP : ∀ p < b, (Spec.cov n P p).det ≠ 0 := fun p hp => by rw [h3]; exact hinv p hp
  have e0 : analyticScale P y = .ok c := by
    rw [analyticScale_eq b n P y h2 (Or.inl hy) hinvP, hcdef]
    congr 2
    · funext p; exact h3 p
    · funext p; exact flat_vec hy p
  have e1 : ∀ s : ℝ, 0 < s → analyticScale (smulT s P) y = .ok (c / s) := by
    intro s hs
    obtain ⟨t, ht, -, ht2⟩ := C33_scaling b n 1 s hs.ne' P y h2 hy hinvP
    rw [e0] at ht
    cases ht
    exact ht2
  have hall : ∀ m, analyticOpt ν (m + 1) Kin y = .ok (heron c m) := by
    intro m
    unfold analyticOpt
    rw [h1]
    simp only [Nat.add_sub_cancel]
    show (do
      let scale ← analyticScale P y
      (List.range' 1 m).foldlM (init := scale) fun scale _ => do
        let s ← analyticScale (smulT scale P) y
        pure (0.5 * (scale + s)) : Res ℝ) = _
    rw [e0]
    show (List.range' 1 m).foldlM (init := c) (fun scale _ => do
        let s ← analyticScale (smulT scale P) y
        pure (0.5 * (scale + s)) : ℝ → Nat → Res ℝ) = _
    induction m with
    | zero => rfl
    | succ m ih =>
      rw [List.range'_1_concat, List.foldlM_append, ih]
      simp only [List.foldlM_cons, List.foldlM_nil, bind, Except.bind, pure, Except.pure]
      rw [e1 _ (heron_pos hc m)]
      rfl
  refine ⟨hall, heron_tendsto hc, fun hc1 it hit h => ?_⟩
  obtain ⟨k, rfl⟩ : ∃ k, it = k + 1 + 1 := ⟨it - 2, by omega⟩
  rw [hall (k + 1)] at h
  exact heron_ne hc hc1 k (Except.ok.inj h)

/-- **C33, where the code fails its documentation.** With all-zero targets the documented value is
0, but every `iteration_count ≥ 2` raises, because the second iteration solves the zero matrix. -/
theorem C33_iterations_zero_targets (ν : Noise) (b n : Nat) (hν : ν.Fits b n) (hb : 0 < b) (hn : 0 < n)
    (Kin y : Tensor ℝ) (hK : Kin.shape = [b, n, n]) (hy : y.shape = [b, n])
    (hinv : ∀ p < b, (Spec.cov n Kin p + ν.mat n p).det ≠ 0)
    (hy0 : ∀ p i, y.get [p, i] = 0) :
    analyticOpt ν 1 Kin y = .ok 0 ∧
    ∀ iterationCount, 2 ≤ iterationCount → analyticOpt ν iterationCount Kin y = .error .linAlg := by
  obtain ⟨P, h1, h2, h3⟩ := ν.perturb_cov hν Kin hK
  have hinvP : ∀ p < b, (Spec.cov n P p).det ≠ 0 := fun p hp => by rw [h3]; exact hinv p hp
  have hz : ∀ p, Spec.vec n y p = 0 := fun p => by ext i; exact hy0 p i
  have e0 : analyticScale P y = .ok 0 := by
    rw [analyticScale_eq b n P y h2 (Or.inl hy) hinvP]
    congr 1
    unfold Spec.scaleEstimate
    simp only [flat_vec hy, hz]
    simp [Spec.quadForm]
  have e1 : analyticScale (smulT 0 P) y = .error .linAlg := by
    refine analyticScale_singular (N := n) b [n] _ y h2 (by simp) (by rw [hy]; simp) 0 hb ?_
    have : (smulT 0 P).matAt n n 0 = 0 := by
      ext i j; simp [Tensor.matAt, smulT, Tensor.map]
    rw [this]
    have : Nonempty (Fin n) := ⟨⟨0, hn⟩⟩
    exact det_zero
  have hgen : ∀ m, analyticOpt ν (m + 1) Kin y = ((List.range' 1 m).foldlM (init := (0 : ℝ))
      (fun scale _ => do
        let s ← analyticScale (smulT scale P) y
        pure (0.5 * (scale + s)) : ℝ → Nat → Res ℝ)) := by
    intro m
    unfold analyticOpt
    rw [h1]
    simp only [Nat.add_sub_cancel]
    show (do
      let scale ← analyticScale P y
      (List.range' 1 m).foldlM (init := scale) fun scale _ => do
        let s ← analyticScale (smulT scale P) y
        pure (0.5 * (scale + s)) : Res ℝ) = _
    rw [e0]; rfl
  refine ⟨by rw [hgen 0]; rfl, fun it hit => ?_⟩
  obtain ⟨k, rfl⟩ : ∃ k, it = k + 1 + 1 := ⟨it - 2, by omega⟩
  rw [hgen, List.range'_succ, List.foldlM_cons, e1]
  rfl

/-- the hypotheses are met: `exK` with unit targets has estimate `2/3` -/
example : ∃ y : Tensor ℝ, y.shape = [1, 2] ∧ exK.shape = [1, 2, 2] ∧ (Noise.null).Fits 1 2 ∧
    (Spec.cov 2 exK 0 + Noise.null.mat 2 0).PosDef ∧
    Spec.scaleEstimate 1 (fun p => Spec.cov 2 exK p + Noise.null.mat 2 p) (Spec.vec 2 y) = 2 / 3 := by
  refine ⟨⟨[1, 2], fun _ => 1⟩, rfl, rfl, trivial, ?_, ?_⟩
  · have : Noise.null.mat 2 0 = 0 := rfl
    rw [this, add_zero]; exact exK_posdef
  · have h0 : Noise.null.mat 2 0 = 0 := rfl
    have hi : (Spec.cov 2 exK 0)⁻¹ = !![4/3, -2/3; -2/3, 4/3] := by
      refine Matrix.inv_eq_right_inv ?_
      rw [exK_cov]
      ext i j; fin_cases i <;> fin_cases j <;> norm_num [Matrix.mul_apply, Fin.sum_univ_two]
    simp only [Spec.scaleEstimate, Finset.sum_range_one, Spec.quadForm, h0, add_zero, hi]
    norm_num [Matrix.vecHead, Matrix.vecTail, dotProduct, mulVec, Fin.sum_univ_two, Spec.vec, Tensor.get]

end MuyGPyS
